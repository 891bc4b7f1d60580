import Verif.Curve.Can

/-!
# Runs that succeed exist: random points, isogenies and chains
-/

namespace Secuer.Curve

open Secuer.Mont

variable {F K : Type} [Field F] [DecidableEq F] [Field K] [DecidableEq K] [IsAlgClosed K]
variable {φ : F →+* K} {σ : K →+* K} {p : ℕ} {env : Env F}

/-- The exponent of `ℓ` in `p + 1` -/
def expo (env : Env F) (ℓ : ℕ) : ℕ := if ℓ = 2 then env.e2 else env.e3

omit [Field F] [DecidableEq F] in
theorem expo_pos (hG : env.toIsoParams.Good) {ℓ : ℕ} (hℓ : ℓ = 2 ∨ ℓ = 3) : 1 ≤ expo env ℓ := by
  have h1 := hG.maxA_pos
  have h2 := hG.halfA
  have h3 := hG.maxB_pos
  have h4 := hG.maxB
  rcases hℓ with rfl | rfl
  · show 1 ≤ env.e2
    omega
  · show 1 ≤ env.e3
    omega

omit [IsAlgClosed K] [DecidableEq K] in
theorem Setting.dvd (hS : Setting φ σ p env) {ℓ : ℕ} (hℓ : ℓ = 2 ∨ ℓ = 3) : ℓ ^ expo env ℓ ∣ p + 1 := by
  rw [hS.order]
  rcases hℓ with rfl | rfl
  · exact ⟨_, rfl⟩
  · exact ⟨_, mul_comm _ _⟩

/-- A point of full order, its multiple of order `ℓ` not a given point up to sign, and a multiple of the cofactor. -/
theorem Super.exists_full (hS : Setting φ σ p env) (h3F : (3 : F) ≠ 0) {A : F} (h : Super φ σ p A) {ℓ : ℕ}
    (hℓ : ℓ = 2 ∨ ℓ = 3) (B : (W A).Point) :
    ∃ X Y : (W A).Point, addOrderOf X = ℓ ^ expo env ℓ ∧ cofactor env ℓ • Y = X ∧
      ℓ ^ (expo env ℓ - 1) • X ≠ B ∧ ℓ ^ (expo env ℓ - 1) • X ≠ -B := by
  have he := expo_pos hS.good hℓ
  have hd : ℓ ∣ p + 1 := (dvd_pow_self ℓ (by omega)).trans (hS.dvd hℓ)
  obtain ⟨Y, hY, hY0, hYB, hYB'⟩ := h.exists_other hS h3F hℓ hd B
  obtain ⟨X, hX⟩ := h.divisible hS hℓ (hS.dvd hℓ) he hY
  have ho : addOrderOf X = ℓ ^ expo env ℓ := by
    have hp : ℓ.Prime := by rcases hℓ with rfl | rfl <;> decide
    rw [addOrderOf_two_pow_iff he hp]
    refine ⟨by rw [hX]; exact hY0, ?_⟩
    rw [show expo env ℓ = (expo env ℓ - 1) + 1 by omega, pow_succ, mul_nsmul, hX, hY]
  have hc : (cofactor env ℓ).Coprime (ℓ ^ expo env ℓ) := by
    unfold cofactor expo
    rcases hℓ with rfl | rfl
    · simp only [if_true]
      exact Nat.Coprime.pow _ _ (by decide)
    · simp only [show ¬ (3 = 2) by norm_num, if_false]
      exact Nat.Coprime.pow _ _ (by decide)
  have hm : ∃ m : ℕ, cofactor env ℓ • m • X = X := by
    have h1 : 1 ≤ ℓ ^ expo env ℓ := Nat.one_le_iff_ne_zero.2 (pow_ne_zero _ (by rcases hℓ with rfl | rfl <;> decide))
    rcases Nat.lt_or_ge 1 (ℓ ^ expo env ℓ) with h1 | h1
    · obtain ⟨m, hm⟩ := Nat.exists_mul_mod_eq_one_of_coprime hc h1
      refine ⟨m, ?_⟩
      obtain ⟨-, hm⟩ := hm
      rw [← mul_nsmul', ← Nat.mod_add_div (cofactor env ℓ * m) (ℓ ^ expo env ℓ), hm, add_nsmul, one_nsmul, mul_nsmul, ← ho,
        addOrderOf_nsmul_eq_zero, nsmul_zero, add_zero]
    · have : X = 0 := by
        rw [← AddMonoid.addOrderOf_eq_one_iff]; omega
      exact ⟨0, by rw [this]; simp⟩
  obtain ⟨m, hm⟩ := hm
  exact ⟨X, m • X, ho, hm, by rw [hX]; exact hYB, by rw [hX]; exact hYB'⟩

theorem orderLoop_full {A : F} {ℓ : ℕ} {mul : Pt F → Pt F}
    (hmul : ∀ (q : Pt F) (X : (W A).Point), Rep q X → Rep (mul q) (ℓ • X)) :
    ∀ (n d e : ℕ) (q : Pt F) (X : (W A).Point), Rep q X → d < n → ℓ ^ d • X ≠ 0 → ℓ ^ (d + 1) • X = 0 →
      ∃ q', orderLoop mul n e q = .ok (e + d, q') ∧ Rep q' (ℓ ^ d • X)
  | 0, _, _, _, _, _, h, _, _ => by omega
  | n + 1, d, e, q, X, hq, hd, h0, h1 => by
    simp only [orderLoop]
    have hm := hmul q X hq
    cases d with
    | zero =>
      have hz : (mul q).Z = 0 := by rw [hm.Z_iff]; simpa using h1
      exact ⟨q, by rw [if_pos hz]; rfl, by simpa using hq⟩
    | succ d =>
      have hz : (mul q).Z ≠ 0 := by
        intro hz
        apply h0
        rw [pow_succ', mul_nsmul, hm.Z_iff.1 hz, nsmul_zero]
      rw [if_neg hz]
      obtain ⟨q', e1, e2⟩ := orderLoop_full hmul n d (e + 1) (mul q) (ℓ • X) hm (by omega)
        (by rw [← mul_nsmul, ← pow_succ']; exact h0) (by rw [← mul_nsmul, ← pow_succ']; exact h1)
      exact ⟨q', by rw [e1]; congr 2; omega, by rw [pow_succ', mul_nsmul]; exact e2⟩

/-- Every multiple of the cofactor of full order can be drawn. -/
theorem randomPointWithOrder_can (h2F : (2 : F) ≠ 0) (hs : SqrtOK env) {A : F} {ℓ : ℕ} (hℓ : ℓ = 2 ∨ ℓ = 3)
    {X Y : (W A).Point} (he : 1 ≤ expo env ℓ) (he' : expo env ℓ ≤ 9998) (ho : addOrderOf X = ℓ ^ expo env ℓ)
    (hY : cofactor env ℓ • Y = X) :
    Can (randomPointWithOrder env A ℓ) (fun r => Rep r.1 X ∧ r.2.1 = expo env ℓ ∧ Rep r.2.2 (ℓ ^ (expo env ℓ - 1) • X)) := by
  have hp : ℓ.Prime := by rcases hℓ with rfl | rfl <;> decide
  obtain ⟨o1, o2⟩ := (addOrderOf_two_pow_iff he hp).1 ho
  have hX0 : X ≠ 0 := by
    rintro rfl
    exact o1 (nsmul_zero _)
  have hY0 : Y ≠ 0 := by
    rintro rfl
    exact hX0 (by rw [← hY, nsmul_zero])
  obtain ⟨c1, c2, c3⟩ := consts A
  unfold randomPointWithOrder
  simp only [c1, c2, c3]
  have hcof : ∀ (q : Pt F) (Y : (W A).Point), Rep q Y →
      Rep (if ℓ = 2 then xTPLe q (A - 2) (A + 2) env.e3 else xDBLe q (A + 2) 4 env.e2) (cofactor env ℓ • Y) := by
    intro q Y hq
    unfold cofactor
    rcases hℓ with rfl | rfl
    · simp only [if_true]; exact xTPLe_rep h2F (isPM_std A) _ hq
    · simp only [show ¬ (3 = 2) by norm_num, if_false]; exact xDBLe_rep h2F (is24_std A) _ hq
  have hmul : ∀ (q : Pt F) (X : (W A).Point), Rep q X →
      Rep (if ℓ = 2 then xDBL q (A + 2) 4 else xTPL q (A - 2) (A + 2)) (ℓ • X) := by
    intro q X hq
    rcases hℓ with rfl | rfl
    · simp only [if_true]; exact xDBL_rep h2F (is24_std A) hq
    · simp only [show ¬ (3 = 2) by norm_num, if_false]; exact xTPL_rep h2F (isPM_std A) hq
  refine Can.bind (Q := fun P => Rep P X) ?_ ?_
  · rw [show (9998 : ℕ) = 9997 + 1 from rfl, randomPointCof]
    refine Can.bind (randomPoint_can hs hY0) fun P hP => ?_
    have h1 := hcof P Y hP
    rw [hY] at h1
    simp only
    rw [if_neg (fun hz => hX0 (h1.Z_iff.1 hz))]
    exact Can.pure h1
  · intro P hP
    obtain ⟨q', e1, e2⟩ := orderLoop_full hmul 9998 (expo env ℓ - 1) 1 P X hP (by omega) o1
      (by rw [show expo env ℓ - 1 + 1 = expo env ℓ by omega]; exact o2)
    refine Can.bind (Can.lift e1 (Q := fun r => r = (1 + (expo env ℓ - 1), q')) rfl) ?_
    rintro _ rfl
    exact Can.pure ⟨hP, by dsimp only; omega, e2⟩

theorem pointEqual_ne {A : F} {a b : Pt F} {X B : (W A).Point} (ha : Rep a X) (hb : Rep b B) (h1 : X ≠ B) (h2 : X ≠ -B) :
    pointEqual a b = false := by
  rw [← Bool.not_eq_true]
  intro he
  simp only [pointEqual, projEqual, decide_eq_true_eq] at he
  have hpe := peq_of_cross ha.nz hb.nz he
  rcases (ha.peq hpe).eq_or_neg hb with e | e
  · exact h1 e
  · exact h2 e

/-- `Random_Point_AB` can return, also when it has a direction to avoid. -/
theorem randomPointAB_can (hS : Setting φ σ p env) (h3F : (3 : F) ≠ 0) {E : Crv F} (h : Super φ σ p (E.A / E.C)) {ℓ : ℕ}
    (hℓ : ℓ = 2 ∨ ℓ = 3) (he' : expo env ℓ ≤ 9998) (avoid : Option (Pt F))
    (hav : ∀ b ∈ avoid, ∃ B : (W (E.A / E.C)).Point, Rep b B) : Can (randomPointAB env E ℓ avoid) (fun _ => True) := by
  have he := expo_pos hS.good hℓ
  obtain ⟨B, hB⟩ : ∃ B : (W (E.A / E.C)).Point, ∀ b ∈ avoid, Rep b B := by
    cases avoid with
    | none => exact ⟨0, by rintro _ ⟨⟩⟩
    | some b =>
      obtain ⟨B, hB⟩ := hav b rfl
      exact ⟨B, by rintro _ ⟨⟩; exact hB⟩
  obtain ⟨X, Y, ho, hY, n1, n2⟩ := h.exists_full hS h3F hℓ B
  unfold randomPointAB
  rw [fp2div_eq, show (9999 : ℕ) = 9998 + 1 from rfl, randomPointABLoop]
  refine Can.bind (randomPointWithOrder_can hS.two hS.sqrt hℓ he he' ho hY) ?_
  rintro ⟨P, e, Q⟩ ⟨h1, h2, h3⟩
  dsimp only at h1 h2 h3 ⊢
  have hlt : ¬ e < (if ℓ = 2 then env.e2 else env.e3) := by
    rw [h2]
    exact lt_irrefl _
  rw [if_neg hlt]
  have ha : ¬ (avoid.any fun a => pointEqual Q a) = true := by
    cases avoid with
    | none => simp
    | some b =>
      simp only [Option.any_some, Bool.not_eq_true]
      exact pointEqual_ne h3 (hB b rfl) n1 n2
  rw [if_neg ha]
  exact Can.pure trivial

/-- The search for the direction back can end in its first iteration. -/
theorem backLoop_can (hS : Setting φ σ p env) (h3F : (3 : F) ≠ 0) {A : F} (h : Super φ σ p A) (he' : env.e3 ≤ 9998)
    {R : Pt F} (hR : Nz R) : ∃ s b, ∀ n t, backLoop env A R (n + 1) (Tape.app s t) = .ok (b, t) := by
  have he := expo_pos hS.good (ℓ := 3) (Or.inr rfl)
  obtain ⟨X, Y, ho, hY, n1, n2⟩ := h.exists_full hS h3F (ℓ := 3) (Or.inr rfl) 0
  obtain ⟨X', Y', ho', hY', n1', n2'⟩ := h.exists_full hS h3F (ℓ := 3) (Or.inr rfl) (3 ^ (expo env 3 - 1) • X)
  have key : ∀ (X Y : (W A).Point), addOrderOf X = 3 ^ expo env 3 → cofactor env 3 • Y = X →
      (∃ s b, ∀ n t, backLoop env A R (n + 1) (Tape.app s t) = .ok (b, t)) ∨
        PEq (xr (3 ^ (expo env 3 - 1) • X)) R := by
    intro X Y ho hY
    obtain ⟨s, ⟨P, e, Q⟩, ⟨-, -, h3⟩, hr⟩ := randomPointWithOrder_can hS.two hS.sqrt (Or.inr rfl) he he' ho hY
    dsimp only at h3
    by_cases hq : pointEqual Q R = true
    · right
      simp only [pointEqual, projEqual, decide_eq_true_eq] at hq
      exact h3.trans (peq_of_cross h3.nz hR hq)
    · left
      refine ⟨s, Q, fun n t => ?_⟩
      unfold backLoop
      rw [bind_eq (hr t)]
      dsimp only
      rw [if_neg hq]
      rfl
  rcases key X Y ho hY with h1 | h1
  · exact h1
  · rcases key X' Y' ho' hY' with h2 | h2
    · exact h2
    · exfalso
      have hr : Rep R (3 ^ (expo env 3 - 1) • X) := h1
      have hr' : Rep R (3 ^ (expo env 3 - 1) • X') := h2
      rcases hr'.eq_or_neg hr with e | e
      · exact n1' e
      · exact n2' e

/-! ### `Isogeny_B` -/

theorem Super.semB_last (hS : Setting φ σ p env) (n : ℕ) : ∀ (A : F) (r : Pt F) (P : (W (φ A)).Point), Super φ σ p A →
    Rep (r.map φ) P → Good3 (n + 1) P → Super φ σ p ((semB φ hS.two).last n A r).1 := by
  have h2 := two_map φ hS.two
  induction n with
  | zero => intro A r P h _ _; exact h
  | succ n ih =>
    intro A r P h hr hP
    obtain ⟨x, e1, e2, e3, e4, hq, hx0, hcyc, P', hP', hP'', hg⟩ := mem_good3_step φ h2 h.1 hS.two hr hP
    have hl : (semB φ hS.two).last (n + 1) A r = (semB φ hS.two).last n ((A * x - 6 * x ^ 2 + 6) * x) (f3 x r) := by
      rw [e1]; rfl
    rw [hl]
    refine ih _ _ P' ?_ hP' hg
    -- one step
    have hsq : IsSquare ((A * x - 6 * x ^ 2 + 6) * x + 2) := by
      have hT := xTPLe_rep' φ hS.two (isPM_std A) hr (n + 1)
      have h30 : 3 • (3 ^ (n + 1) • P) = 0 := by rw [← mul_nsmul, ← pow_succ]; exact hP.1
      have := semB_sq φ hS.two 1 A _ (3 ^ (n + 1) • P) h.1 hT ⟨by simpa using h30, fun _ => by simpa using hP.2 (Nat.succ_pos _)⟩
        (h.sq hS.frob hS.two)
      have e : ((semB φ hS.two).full 1 A (xTPLe r (A - 2) (A + 2) (n + 1))).1 = (A * x - 6 * x ^ 2 + 6) * x := by
        rw [e1]; rfl
      rwa [e] at this
    exact (h.x.trans hS.frob hS.two hcyc.hom (defOver_f3 φ x) hcyc.surj e3).super hS.frob hS.two hsq

/-- `Isogeny_B` can return when the direction back is asked for. -/
theorem isogenyB_can (hS : Setting φ σ p env) (h3F : (3 : F) ≠ 0) (he' : env.e3 ≤ 9998) {E : Crv F} (hC : E.C ≠ 0)
    (h : Super φ σ p (E.A / E.C)) (k : Pt F) (q : Option (Pt F)) {P : (W (φ (E.A / E.C))).Point} (hk : Rep (k.map φ) P)
    (ho : addOrderOf P = 3 ^ env.e3) : Can (isogenyB env true E k q) (fun _ => True) := by
  have h2 := two_map φ hS.two
  have hG := hS.good
  have he3 : 0 < env.e3 := expo_pos hG (ℓ := 3) (Or.inr rfl)
  obtain ⟨_, hpm⟩ := acToAac24_is24 E hC
  have hT := xTPLe_rep' φ hS.two hpm hk (env.e3 - 1)
  have hO := xTPL_rep h2 (isPM_map φ hpm) hT
  rw [← map_xTPL] at hO
  set T1 := xTPLe k (acToAac24 E).2.1 (acToAac24 E).1 (env.e3 - 1) with hT1def
  have hTZ : T1.Z = 0 ↔ 3 ^ (env.e3 - 1) • P = 0 := by rw [← hT.Z_iff]; simp
  have hOZ : (xTPL T1 (acToAac24 E).2.1 (acToAac24 E).1).Z = 0 ↔ 3 ^ env.e3 • P = 0 := by
    have h := hO.Z_iff
    rw [← mul_nsmul, ← pow_succ, Nat.sub_add_cancel he3] at h
    rw [← h]; simp
  obtain ⟨ho1, ho2⟩ := (addOrderOf_two_pow_iff (P := P) he3 Nat.prime_three).1 ho
  have hok : ¬ (T1.Z = 0 ∨ (xTPL T1 (acToAac24 E).2.1 (acToAac24 E).1).Z ≠ 0) := by
    rw [hTZ, ne_eq, hOZ]
    push Not
    exact ⟨ho1, ho2⟩
  obtain ⟨s, a', gF, gK, b, hs1, hs2, hs3, hs4, hs5, hsnz, hs6, hs7, hs8, hs9⟩ := loopB (env := env) φ hS.two hG q h.1
    (cv := ((acToAac24 E).2.1, (acToAac24 E).1)) hpm hk ⟨ho2, fun _ => ho1⟩
  have hsup : Super φ σ p ((aa24ToAc s.cv.1 s.cv.2).A / (aa24ToAc s.cv.1 s.cv.2).C) := by
    rw [hs9]
    refine Super.semB_last hS _ _ _ P h hk ?_
    have hm : env.maxB - 1 + 1 = env.e3 := by have := hG.maxB; have := hG.maxB_pos; omega
    rw [hm]
    exact ⟨ho2, fun _ => ho1⟩
  obtain ⟨w, b', hb'⟩ := backLoop_can hS h3F hsup he' hs8
  simp only [isogenyB]
  simp only [← hT1def, hok, if_false, hs1, if_true]
  refine Can.bind (Q := fun _ => True) ⟨w, some b', trivial, fun t => ?_⟩ fun _ _ => Can.pure trivial
  rw [fp2div_eq]
  unfold M.bind
  beta_reduce
  rw [hb']
  rfl

end Secuer.Curve
