import Verif.Curve.Torsion
import Verif.Curve.SuperCheck
import Verif.Curve.ChainSpec

/-!
# Runs that succeed exist

The specifications of the randomised functions say what holds *if* they return. Here it is shown that they do
return, for suitable random values, so that those statements are not empty.
-/

namespace Secuer.Curve

open Secuer.Mont

section can

variable {F : Type}

/-- The random values of `s`, followed by those of `t`. -/
def Tape.app (s t : Tape F) : Tape F := ⟨s.pts ++ t.pts, s.hide ++ t.hide, s.scal ++ t.scal⟩

theorem Tape.app_assoc (s t u : Tape F) : (s.app t).app u = s.app (t.app u) := by
  simp [Tape.app]

/-- For some random values the computation returns a value as wanted, whatever values follow. -/
def Can {α : Type} (m : M F α) (Q : α → Prop) : Prop := ∃ s a, Q a ∧ ∀ t, m (Tape.app s t) = .ok (a, t)

theorem Can.pure {α : Type} {Q : α → Prop} {a : α} (h : Q a) : Can (Pure.pure a : M F α) Q :=
  ⟨⟨[], [], []⟩, a, h, fun _ => rfl⟩

theorem Can.bind {α β : Type} {m : M F α} {k : α → M F β} {Q : α → Prop} {R : β → Prop} (h : Can m Q)
    (hk : ∀ a, Q a → Can (k a) R) : Can (m >>= k) R := by
  obtain ⟨s, a, ha, hs⟩ := h
  obtain ⟨s', b, hb, hs'⟩ := hk a ha
  refine ⟨s.app s', b, hb, fun t => ?_⟩
  rw [Tape.app_assoc]
  change (match m _ with
    | .ok (a, t) => k a t | .abort => .abort | .ub => .ub | .starved => .starved) = _
  rw [hs]; exact hs' t

theorem Can.mono {α : Type} {m : M F α} {Q R : α → Prop} (h : Can m Q) (hqr : ∀ a, Q a → R a) : Can m R := by
  obtain ⟨s, a, ha, hs⟩ := h
  exact ⟨s, a, hqr a ha, hs⟩

theorem Can.lift {α : Type} {o : Out α} {Q : α → Prop} {a : α} (h : o = .ok a) (hQ : Q a) :
    Can (M.lift o : M F α) Q := by
  rw [h]; exact Can.pure hQ

/-- What is known of every result may be used. -/
theorem Can.and {α : Type} {m : M F α} {Q R : α → Prop} (h : Can m Q) (hr : Ret m R) :
    Can m (fun a => Q a ∧ R a) := by
  obtain ⟨s, a, ha, hs⟩ := h
  exact ⟨s, a, ⟨ha, hr _ _ _ (hs s)⟩, hs⟩

end can

variable {F K : Type} [Field F] [DecidableEq F] [Field K] [DecidableEq K] [IsAlgClosed K]
variable {φ : F →+* K} {σ : K →+* K} {p : ℕ} {env : Env F}

/-- Every point but the point at infinity can be drawn. -/
theorem randomPoint_can (hs : SqrtOK env) {A : F} {X : (W A).Point} (hX : X ≠ 0) :
    Can (randomPoint env A) (fun P => Rep P X) := by
  cases X with
  | zero => exact absurd rfl hX
  | some x y h =>
    refine ⟨⟨[x], [], []⟩, ⟨x, 1⟩, rep_xr _, fun t => ?_⟩
    have he := (W_equation _ _ _).1 h.1
    have hsq := hs (rhsOf A x) ⟨y, by rw [rhsOf_eq, ← he, sq]⟩
    simp only [randomPoint, Tape.app, List.cons_append, List.nil_append, randomPointAux]
    rw [if_pos hsq]

/-- Points of the curve over `F` that are divisible by large powers. -/
theorem Super.divisible (hS : Setting φ σ p env) {A : F} (h : Super φ σ p A) {ℓ e : ℕ} (hℓ : ℓ = 2 ∨ ℓ = 3)
    (he : ℓ ^ e ∣ p + 1) (h1 : 1 ≤ e) {Y : (W A).Point} (hY : ℓ • Y = 0) :
    ∃ X : (W A).Point, ℓ ^ (e - 1) • X = Y := by
  have h2 := two_map φ hS.two
  have hA := sq_ne_four_map φ h.1
  obtain ⟨ι, hinj, hι⟩ := exists_pointMap φ A
  have hdiv : ∀ (n : ℕ) (T : (W (φ A)).Point), ∃ X, ℓ ^ n • X = T := by
    intro n
    induction n with
    | zero => exact fun T => ⟨T, by simp⟩
    | succ n ih =>
      intro T
      obtain ⟨X, hX⟩ := ih T
      obtain ⟨X', hX'⟩ : ∃ X', ℓ • X' = X := by
        rcases hℓ with rfl | rfl
        · exact two_surj h2 hA X
        · exact three_surj h2 hA X
      exact ⟨X', by rw [pow_succ', mul_nsmul, hX', hX]⟩
  obtain ⟨X, hX⟩ := hdiv (e - 1) (ι Y)
  have hk : (p + 1) • X = 0 := by
    obtain ⟨m, hm⟩ := he
    rw [hm, mul_nsmul, show e = (e - 1) + 1 by omega, pow_succ, mul_nsmul, hX, ← map_nsmul, hY, map_zero, nsmul_zero]
  cases X with
  | zero =>
    refine ⟨0, hinj ?_⟩
    rw [nsmul_zero, map_zero, ← hX]
    exact (nsmul_zero _).symm
  | some x y hn =>
    obtain ⟨a, b, rfl, rfl⟩ := h.rational hS.frob (hn := hn) hk
    have hn' : (W A).Nonsingular a b := W_nonsingular hS.two h.1 (by
      have := (W_equation _ _ _).1 hn.1
      apply φ.injective
      simpa using this)
    obtain ⟨h', e'⟩ := hι a b hn'
    exact ⟨.some a b hn', hinj (by rw [map_nsmul, e', hX])⟩

/-- All points of order two and three are over `F`. -/
theorem Super.card_torsion (hS : Setting φ σ p env) (h3F : (3 : F) ≠ 0) {A : F} (h : Super φ σ p A) {ℓ : ℕ}
    (hℓ : ℓ = 2 ∨ ℓ = 3) (hd : ℓ ∣ p + 1) : Nat.card (kerMul (W A).Point ℓ) = ℓ ^ 2 := by
  have h2 := two_map φ hS.two
  have h3 : (3 : K) ≠ 0 := by
    have := (map_ne_zero φ).2 h3F
    simpa [map_ofNat] using this
  have hA := sq_ne_four_map φ h.1
  have hK : Nat.card (kerMul (W (φ A)).Point ℓ) = ℓ ^ 2 := by
    rcases hℓ with rfl | rfl
    · exact card_two h2 hA
    · exact card_three h2 h3 hA
  rw [← hK]
  obtain ⟨ι, hinj, hι⟩ := exists_pointMap φ A
  have hr : ∀ T : (W (φ A)).Point, ℓ • T = 0 → ∃ X, ι X = T := by
    intro T hT
    have hk : (p + 1) • T = 0 := by
      obtain ⟨m, hm⟩ := hd
      rw [hm, mul_nsmul, hT, nsmul_zero]
    cases T with
    | zero => exact ⟨0, map_zero ι⟩
    | some x y hn =>
      obtain ⟨a, b, rfl, rfl⟩ := h.rational hS.frob (hn := hn) hk
      have hn' : (W A).Nonsingular a b := W_nonsingular hS.two h.1 (by
        have := (W_equation _ _ _).1 hn.1
        apply φ.injective
        simpa using this)
      obtain ⟨h', e'⟩ := hι a b hn'
      exact ⟨_, e'⟩
  refine Nat.card_congr (Equiv.ofBijective (fun X : kerMul (W A).Point ℓ =>
    (⟨ι X.1, by rw [mem_kerMul, ← map_nsmul, mem_kerMul.1 X.2, map_zero]⟩ : kerMul (W (φ A)).Point ℓ)) ⟨?_, ?_⟩)
  · intro X Y e
    exact Subtype.ext (hinj (congrArg Subtype.val e))
  · rintro ⟨T, hT⟩
    obtain ⟨X, rfl⟩ := hr T hT
    refine ⟨⟨X, hinj ?_⟩, rfl⟩
    rw [map_zero]
    change ι (ℓ • X) = 0
    rw [map_nsmul]; exact hT

/-- A point of order `ℓ` that is not a given point up to sign. -/
theorem Super.exists_other (hS : Setting φ σ p env) (h3F : (3 : F) ≠ 0) {A : F} (h : Super φ σ p A) {ℓ : ℕ}
    (hℓ : ℓ = 2 ∨ ℓ = 3) (hd : ℓ ∣ p + 1) (B : (W A).Point) :
    ∃ Y : (W A).Point, ℓ • Y = 0 ∧ Y ≠ 0 ∧ Y ≠ B ∧ Y ≠ -B := by
  classical
  have hc := h.card_torsion hS h3F hℓ hd
  by_contra hno
  push Not at hno
  have hsub : (kerMul (W A).Point ℓ : Set (W A).Point) ⊆ {0, B, -B} := by
    intro Y hY
    by_cases h0 : Y = 0
    · exact Or.inl h0
    · by_cases hB : Y = B
      · exact Or.inr (Or.inl hB)
      · exact Or.inr (Or.inr (hno Y hY h0 hB))
  have hle := Set.ncard_le_ncard hsub (Set.toFinite _)
  rw [← Nat.card_coe_set_eq] at hle
  change Nat.card (kerMul (W A).Point ℓ) ≤ _ at hle
  have h3 : ({0, B, -B} : Set (W A).Point).ncard ≤ 3 := by
    refine (Set.ncard_insert_le _ _).trans ?_
    have := Set.ncard_insert_le B {-B}
    rw [Set.ncard_singleton] at this
    omega
  rw [hc] at hle
  rcases hℓ with rfl | rfl <;> omega

/-! ### The curve check -/

theorem valLoop_full {A : F} {ℓ : ℕ} {mul : Pt F → Pt F}
    (hmul : ∀ (q : Pt F) (X : (W A).Point), Rep q X → Rep (mul q) (ℓ • X)) (n : ℕ) (hn : 0 < n) (T q : Pt F)
    (X : (W A).Point) (hq : Rep q X) (h0 : ℓ ^ n • X = 0) (h1 : ℓ ^ (n - 1) • X ≠ 0) :
    ∃ T' q', valLoop mul n 0 T q = (n, T', q') ∧ q'.Z = 0 ∧ Rep T' (ℓ ^ (n - 1) • X) := by
  rcases hv : valLoop mul n 0 T q with ⟨h', T', q'⟩
  obtain ⟨d, hd, e, hq', _, _, hT', hlt⟩ := valLoop_spec hmul n 0 T q X h' T' q' hq hv
  have hdn : d = n := by
    by_contra hne
    have hd' : d ≤ n - 1 := by omega
    apply h1
    rw [show n - 1 = d + (n - 1 - d) by omega, pow_add, mul_nsmul, hlt (by omega), nsmul_zero]
  subst hdn
  refine ⟨T', q', by rw [e, zero_add], ?_, hT' hn⟩
  rw [hq'.Z_iff]; exact h0

/-- `Check_Curve` can accept every curve with Frobenius `-p`. -/
theorem checkCurve_can (hS : Setting φ σ p env) (h3F : (3 : F) ≠ 0) (po : ProvesOrder) (junk : ℕ → Pt F × Pt F)
    (he2 : 1 ≤ env.e2) (he3 : 1 ≤ env.e3) (hpo : po (2 * env.e2) env.e3 = true) (hpo0 : po 0 0 = false)
    {A : F} (h : Super φ σ p A) : Can (checkCurve env po junk ⟨A, 1⟩) (fun b => b = true) := by
  have hd2 : 2 ^ env.e2 ∣ p + 1 := ⟨3 ^ env.e3, hS.order⟩
  have hd3 : 3 ^ env.e3 ∣ p + 1 := ⟨2 ^ env.e2, by rw [hS.order, mul_comm]⟩
  have d2 : 2 ∣ p + 1 := (dvd_pow_self 2 (by omega)).trans hd2
  have d3 : 3 ∣ p + 1 := (dvd_pow_self 3 (by omega)).trans hd3
  -- two points of order two, one of order three, and points above them
  obtain ⟨Y1, hY1, hY10, -, -⟩ := h.exists_other hS h3F (Or.inl rfl) d2 0
  obtain ⟨Y2, hY2, hY20, hY21, hY21'⟩ := h.exists_other hS h3F (Or.inl rfl) d2 Y1
  obtain ⟨Y3, hY3, hY30, -, -⟩ := h.exists_other hS h3F (Or.inr rfl) d3 0
  have above : ∀ Y : (W A).Point, 2 • Y = 0 → Y ≠ 0 → ∃ P : (W A).Point, P ≠ 0 ∧
      2 ^ env.e2 • 3 ^ env.e3 • P = 0 ∧ 2 ^ (env.e2 - 1) • 3 ^ env.e3 • P = Y ∧
      3 ^ env.e3 • 2 ^ env.e2 • P = 0 ∧ 3 ^ (env.e3 - 1) • 2 ^ env.e2 • P ≠ 0 := by
    intro Y hY hY0
    obtain ⟨X, hX⟩ := h.divisible hS (Or.inl rfl) hd2 he2 hY
    obtain ⟨X', hX'⟩ := h.divisible hS (Or.inr rfl) hd3 he3 hY3
    have hX0 : 2 ^ env.e2 • X = 0 := by
      rw [show env.e2 = (env.e2 - 1) + 1 by omega, pow_succ, mul_nsmul, hX, hY]
    have hX0' : 3 ^ env.e3 • X' = 0 := by
      rw [show env.e3 = (env.e3 - 1) + 1 by omega, pow_succ, mul_nsmul, hX', hY3]
    -- `3^e3` is odd
    have hodd : ∀ k : ℕ, 3 ^ k • Y = Y := by
      intro k
      obtain ⟨m, hm⟩ : Odd (3 ^ k) := Odd.pow (by decide)
      rw [hm, add_nsmul, one_nsmul, mul_nsmul, hY, nsmul_zero, zero_add]
    have h2Y3 : ∀ k : ℕ, 2 ^ k • Y3 ≠ 0 := by
      intro k hk
      apply hY30
      have hc : Nat.Coprime (2 ^ k) 3 := Nat.Coprime.pow_left _ (by decide)
      have hdvd := Nat.dvd_gcd (addOrderOf_dvd_of_nsmul_eq_zero hk) (addOrderOf_dvd_of_nsmul_eq_zero hY3)
      rw [hc, Nat.dvd_one, AddMonoid.addOrderOf_eq_one_iff] at hdvd
      exact hdvd
    have key : 2 ^ (env.e2 - 1) • 3 ^ env.e3 • (X + X') = Y := by
      rw [nsmul_add, hX0', add_zero, ← mul_nsmul, mul_comm, mul_nsmul, hX, hodd]
    refine ⟨X + X', ?_, ?_, key, ?_, ?_⟩
    · intro h0
      rw [h0, nsmul_zero, nsmul_zero] at key
      exact hY0 key.symm
    · rw [nsmul_add, hX0', add_zero, ← mul_nsmul, mul_comm, mul_nsmul, hX0, nsmul_zero]
    · rw [nsmul_add, hX0, zero_add, ← mul_nsmul, mul_comm, mul_nsmul, hX0', nsmul_zero]
    · rw [nsmul_add, hX0, zero_add, ← mul_nsmul, mul_comm, mul_nsmul, hX']
      exact h2Y3 _
  obtain ⟨P1, hP1, a1, b1, c1, e1⟩ := above Y1 hY1 hY10
  obtain ⟨P2, hP2, a2, b2, -, -⟩ := above Y2 hY2 hY20
  obtain ⟨h24, hpm⟩ := acToAac24_is24 (⟨A, 1⟩ : Crv F) one_ne_zero
  simp only [div_one] at h24 hpm
  unfold checkCurve
  simp only
  revert h24 hpm
  generalize acToAac24 (⟨A, 1⟩ : Crv F) = r
  obtain ⟨a, am, c⟩ := r
  intro h24 hpm
  simp only at h24 hpm ⊢
  have hm2 : ∀ (q : Pt F) (X : (W A).Point), Rep q X → Rep (xDBL q a c) (2 • X) := fun q X hq =>
    xDBL_rep hS.two h24 hq
  have hm3 : ∀ (q : Pt F) (X : (W A).Point), Rep q X → Rep (xTPL q am a) (3 • X) := fun q X hq =>
    xTPL_rep hS.two hpm hq
  have peq0 : ∀ T : Pt F, pointEqual T ⟨0, 0⟩ = true := by intro T; simp [pointEqual, projEqual]
  -- first iteration
  rw [show (9999 : ℕ) = 9997 + 1 + 1 from rfl, checkCurveLoop]
  refine Can.bind (randomPoint_can hS.sqrt hP1) (fun P hP => ?_)
  simp only
  obtain ⟨T2, q2, v2, z2, hT2⟩ := valLoop_full hm2 env.e2 he2 (junk (9997 + 1)).1 _ _ (xTPLe_rep hS.two hpm env.e3 hP) a1
    (by rw [b1]; exact hY10)
  rw [v2]
  simp only [z2, ne_eq, not_true_eq_false, if_false, peq0, if_true, hpo0, Bool.false_eq_true]
  obtain ⟨T3, q3, v3, z3, hT3⟩ := valLoop_full hm3 env.e3 he3 (junk (9997 + 1)).2 _ _ (xDBLe_rep hS.two h24 env.e2 hP) c1 e1
  rw [v3]
  simp only [z3, ne_eq, not_true_eq_false, if_false, gt_iff_lt, show 0 < env.e2 from he2, show 0 < env.e3 from he3, if_true,
    peq0, hpo0, Bool.false_eq_true]
  -- second iteration
  rw [checkCurveLoop]
  refine Can.bind (randomPoint_can hS.sqrt hP2) (fun P' hP' => ?_)
  simp only
  obtain ⟨T2', q2', v2', z2', hT2'⟩ := valLoop_full hm2 env.e2 he2 (junk 9997).1 _ _
    (xTPLe_rep hS.two hpm env.e3 hP') a2 (by rw [b2]; exact hY20)
  rw [v2']
  have hne : pointEqual T2' T2 = false := by
    rw [b1] at hT2
    rw [b2] at hT2'
    rw [← Bool.not_eq_true]
    intro he
    simp only [pointEqual, projEqual, decide_eq_true_eq] at he
    have hpe := peq_of_cross hT2'.nz hT2.nz he
    rcases (hT2'.peq hpe).eq_or_neg hT2 with e | e
    · exact hY21 e
    · exact hY21' e
  simp only [z2', ne_eq, not_true_eq_false, if_false, hne, Bool.false_eq_true]
  rw [show env.e2 + env.e2 = 2 * env.e2 by ring, if_pos hpo]
  exact Can.pure rfl

end Secuer.Curve
