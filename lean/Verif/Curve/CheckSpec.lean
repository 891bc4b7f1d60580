import Verif.Curve.RandSpec
import Mathlib.GroupTheory.OrderOfElement
import Mathlib.GroupTheory.Index

/-!
# What `Check_Curve` establishes

* acceptance gives divisors `2^a`, `3^b` of the order of the group of rational points that pass the order
  test (`checkCurve_true`);
* a singular coefficient is never accepted (`checkCurve_singular`);
* a group killed by `2^e2 * 3^e3` is never rejected (`checkCurve_false`);
* the outcome does not depend on the uninitialised `cur2.T`, `cur3.T` (`checkCurve_junk`).
-/

namespace Secuer.Curve

open Secuer.Mont

/-! ### Independent points in a finite group -/

section group

variable {G : Type} [AddCommGroup G]

/-- Order from the exact number of multiplications needed. -/
theorem addOrderOf_of_first {ℓ : ℕ} (hℓ : ℓ.Prime) {X : G} {h : ℕ} (h0 : ℓ ^ h • X = 0)
    (h1 : ∀ i < h, ℓ ^ i • X ≠ 0) : addOrderOf X = ℓ ^ h := by
  haveI := Fact.mk hℓ
  cases h with
  | zero => simpa using h0
  | succ n => exact addOrderOf_eq_prime_pow (h1 n (Nat.lt_succ_self n)) h0

/-- An element of a cyclic group of prime power order `ℓ^a` outside the trivial group: a multiple of it by a
power of `ℓ` is a multiple, prime to `ℓ`, of the element of order `ℓ`. -/
theorem exists_mul_last {ℓ : ℕ} (hℓ : ℓ.Prime) {X x : G} {a : ℕ} (hX : addOrderOf X = ℓ ^ a)
    (hx : x ∈ AddSubgroup.zmultiples X) (hx0 : x ≠ 0) :
    ∃ k, ∃ u : ℕ, ¬ ℓ ∣ u ∧ addOrderOf x = ℓ ^ (k + 1) ∧ 1 ≤ a ∧ ℓ ^ k • x = u • ℓ ^ (a - 1) • X := by
  haveI := Fact.mk hℓ
  have hfin : IsOfFinAddOrder X := by
    rw [← addOrderOf_pos_iff, hX]; exact pow_pos hℓ.pos _
  obtain ⟨m, hm⟩ : ∃ m : ℕ, m • X = x :=
    (AddSubmonoid.mem_multiples_iff _ _).1 (hfin.mem_multiples_iff_mem_zmultiples.2 hx)
  have hm0 : m ≠ 0 := by rintro rfl; exact hx0 (by rw [← hm]; simp)
  obtain ⟨i, u, hu, hmu⟩ := Nat.exists_eq_pow_mul_and_not_dvd hm0 ℓ hℓ.one_lt.ne'
  have hia : i < a := by
    by_contra hia
    apply hx0
    rw [← hm]
    apply addOrderOf_dvd_iff_nsmul_eq_zero.1
    rw [hX, hmu]
    exact Dvd.dvd.mul_right (pow_dvd_pow _ (not_lt.1 hia)) _
  have hk : ℓ ^ (a - 1 - i) • x = u • ℓ ^ (a - 1) • X := by
    rw [← hm, ← mul_nsmul', ← mul_nsmul', hmu]
    congr 1
    rw [← mul_assoc, ← pow_add, show a - 1 - i + i = a - 1 by omega]; ring
  have hT : addOrderOf (ℓ ^ (a - 1) • X) = ℓ := by
    have : ℓ ^ (a - 1) ∣ addOrderOf X := by rw [hX]; exact pow_dvd_pow _ (by omega)
    rw [addOrderOf_nsmul_of_dvd (pow_ne_zero _ hℓ.ne_zero) this, hX, Nat.pow_div (by omega) hℓ.pos,
      show a - (a - 1) = 1 by omega, pow_one]
  refine ⟨a - 1 - i, u, hu, ?_, by omega, hk⟩
  refine addOrderOf_eq_prime_pow ?_ ?_
  · rw [hk]
    intro h
    have := addOrderOf_dvd_iff_nsmul_eq_zero.2 h
    rw [hT] at this
    exact hu this
  · rw [pow_succ, mul_nsmul, hk, ← mul_nsmul', ← mul_nsmul']
    apply addOrderOf_dvd_iff_nsmul_eq_zero.1
    rw [hX]
    have : ℓ ^ a = ℓ * ℓ ^ (a - 1) := by rw [← pow_succ', show a - 1 + 1 = a by omega]
    rw [this]
    exact ⟨u, by ring⟩

theorem disjoint_of_last {ℓ : ℕ} (hℓ : ℓ = 2 ∨ ℓ = 3) {X Y : G} {a b : ℕ} (hX : addOrderOf X = ℓ ^ a)
    (hY : addOrderOf Y = ℓ ^ b) (h1 : ℓ ^ (a - 1) • X ≠ ℓ ^ (b - 1) • Y)
    (h2 : ℓ ^ (a - 1) • X ≠ -(ℓ ^ (b - 1) • Y)) :
    Disjoint (AddSubgroup.zmultiples X) (AddSubgroup.zmultiples Y) := by
  have hp : ℓ.Prime := by rcases hℓ with rfl | rfl <;> decide
  rw [AddSubgroup.disjoint_def]
  intro x hx hy
  by_contra hx0
  obtain ⟨k, u, hu, ho, ha, he⟩ := exists_mul_last hp hX hx hx0
  obtain ⟨k', v, hv, ho', hb, he'⟩ := exists_mul_last hp hY hy hx0
  have hkk : k = k' := by
    have := Nat.pow_right_injective hp.two_le (ho.symm.trans ho')
    omega
  subst hkk
  rw [he] at he'
  have hT : ℓ • ℓ ^ (a - 1) • X = 0 := by
    rw [← mul_nsmul', ← pow_succ', show a - 1 + 1 = a by omega, ← hX, addOrderOf_nsmul_eq_zero]
  have hT' : ℓ • ℓ ^ (b - 1) • Y = 0 := by
    rw [← mul_nsmul', ← pow_succ', show b - 1 + 1 = b by omega, ← hY, addOrderOf_nsmul_eq_zero]
  revert h1 h2 he' hT hT'
  generalize ℓ ^ (a - 1) • X = T
  generalize ℓ ^ (b - 1) • Y = T'
  intro h1 h2 he' hT hT'
  have red : ∀ (w : ℕ) (S : G), ℓ • S = 0 → w • S = (w % ℓ) • S := by
    intro w S hS
    conv_lhs => rw [← Nat.div_add_mod w ℓ, add_nsmul, mul_comm, mul_nsmul', hS, smul_zero, zero_add]
  rw [red u T hT, red v T' hT'] at he'
  rcases hℓ with rfl | rfl
  · have e1 : u % 2 = 1 := by omega
    have e2 : v % 2 = 1 := by omega
    rw [e1, e2, one_nsmul, one_nsmul] at he'
    exact h1 he'
  · have n1 : ∀ S : G, 3 • S = 0 → 2 • S = -S := by
      intro S hS
      rw [eq_neg_iff_add_eq_zero, ← succ_nsmul]; exact hS
    have e1 : u % 3 = 1 ∨ u % 3 = 2 := by omega
    have e2 : v % 3 = 1 ∨ v % 3 = 2 := by omega
    rcases e1 with e1 | e1 <;> rcases e2 with e2 | e2 <;> rw [e1, e2] at he'
    · rw [one_nsmul, one_nsmul] at he'; exact h1 he'
    · rw [one_nsmul, n1 _ hT'] at he'; exact h2 he'
    · rw [one_nsmul, n1 _ hT] at he'; exact h2 (neg_eq_iff_eq_neg.1 he')
    · rw [n1 _ hT, n1 _ hT'] at he'; exact h1 (neg_injective he')

/-- Two independent elements of prime power order multiply their orders into the group order. -/
theorem card_dvd_of_disjoint [Finite G] {X Y : G}
    (h : Disjoint (AddSubgroup.zmultiples X) (AddSubgroup.zmultiples Y)) :
    addOrderOf X * addOrderOf Y ∣ Nat.card G := by
  let f : AddSubgroup.zmultiples X × AddSubgroup.zmultiples Y →+ G :=
    AddMonoidHom.coprod (AddSubgroup.subtype _) (AddSubgroup.subtype _)
  have hf : Function.Injective f := by
    rw [injective_iff_map_eq_zero]
    rintro ⟨⟨x, hx⟩, ⟨y, hy⟩⟩ he
    have he : x + y = 0 := he
    have hxy : x = -y := eq_neg_of_add_eq_zero_left he
    have hx' : x ∈ AddSubgroup.zmultiples Y := by rw [hxy]; exact neg_mem hy
    have h0 := (AddSubgroup.disjoint_def.1 h) hx hx'
    subst h0
    have : y = 0 := by simpa using he
    subst this
    rfl
  have := AddSubgroup.card_addSubgroup_dvd_card f.range
  rw [← Nat.card_congr (AddMonoidHom.ofInjective hf).toEquiv, Nat.card_prod, Nat.card_zmultiples,
    Nat.card_zmultiples] at this
  exact this

end group

/-! ### The valuation loops -/

section field

variable {F : Type} [Field F] [DecidableEq F] {env : Env F}

theorem pointEqual_false {A : F} {p q : Pt F} {P Q : (W A).Point} (hp : Rep p P) (hq : Rep q Q)
    (h : pointEqual p q = false) : P ≠ Q ∧ P ≠ -Q := by
  simp only [pointEqual, projEqual, decide_eq_false_iff_not] at h
  constructor
  · rintro rfl
    exact h (hp.unique hq).cross
  · rintro rfl
    exact h (hp.unique hq.neg).cross

theorem valLoop_spec {A : F} {ℓ : ℕ} {mul : Pt F → Pt F}
    (hmul : ∀ (q : Pt F) (X : (W A).Point), Rep q X → Rep (mul q) (ℓ • X)) :
    ∀ (n h : ℕ) (T q : Pt F) (X : (W A).Point) (h' : ℕ) (T' q' : Pt F), Rep q X →
      valLoop mul n h T q = (h', T', q') →
      ∃ d ≤ n, h' = h + d ∧ Rep q' (ℓ ^ d • X) ∧ (∀ i < d, ℓ ^ i • X ≠ 0) ∧ (d = 0 → T' = T) ∧
        (0 < d → Rep T' (ℓ ^ (d - 1) • X)) ∧ (d < n → ℓ ^ d • X = 0)
  | 0, h, T, q, X, h', T', q', hq, e => by
    simp only [valLoop, Prod.mk.injEq] at e
    obtain ⟨rfl, rfl, rfl⟩ := e
    exact ⟨0, le_refl _, rfl, by simpa using hq, by simp, fun _ => rfl, by simp, by simp⟩
  | n + 1, h, T, q, X, h', T', q', hq, e => by
    simp only [valLoop] at e
    by_cases hz : q.Z = 0
    · simp only [hz, if_true, Prod.mk.injEq] at e
      obtain ⟨rfl, rfl, rfl⟩ := e
      exact ⟨0, Nat.zero_le _, rfl, by simpa using hq, by simp, fun _ => rfl, by simp,
        fun _ => by simpa using hq.Z_iff.1 hz⟩
    · simp only [hz, if_false] at e
      have hX : X ≠ 0 := fun h0 => hz (hq.Z_iff.2 h0)
      obtain ⟨d, hd, e1, e2, e3, e4, e5, e6⟩ := valLoop_spec hmul n (h + 1) q (mul q) (ℓ • X) h' T' q'
        (hmul q X hq) e
      have hs : ∀ i, ℓ ^ i • ℓ • X = ℓ ^ (i + 1) • X := fun i => by rw [← mul_nsmul', ← pow_succ]
      simp only [hs] at e2 e3 e5 e6
      refine ⟨d + 1, by omega, by omega, e2, ?_, by simp, fun _ => ?_, fun hlt => e6 (by omega)⟩
      · intro i hi
        cases i with
        | zero => simpa using hX
        | succ i => exact e3 i (by omega)
      · rcases Nat.eq_zero_or_pos d with rfl | hd0
        · rw [e4 rfl]; simpa using hq
        · have := e5 hd0
          rwa [show d - 1 + 1 = d + 1 - 1 by omega] at this

/-- The content of `max2` and `max3`. -/
def MaxInv (A : F) (ℓ e : ℕ) (m : Pt F × ℕ) : Prop :=
  m.2 ≤ e ∧ (m.2 = 0 ∨ ∃ X : (W A).Point, addOrderOf X = ℓ ^ m.2 ∧ Rep m.1 (ℓ ^ (m.2 - 1) • X))

theorem ord_dvd {A : F} [Finite (W A).Point] {ℓ e h : ℕ} (hℓ : ℓ = 2 ∨ ℓ = 3) {m : Pt F × ℕ}
    (hm : MaxInv A ℓ e m) {T : Pt F} {X : (W A).Point} (hh : h ≤ e) (hX : addOrderOf X = ℓ ^ h)
    (hT : 0 < h → Rep T (ℓ ^ (h - 1) • X)) :
    (if pointEqual T m.1 then m.2 else m.2 + h) ≤ 2 * e ∧
      ℓ ^ (if pointEqual T m.1 then m.2 else m.2 + h) ∣ Nat.card (W A).Point := by
  have hdvd : ℓ ^ h ∣ Nat.card (W A).Point := hX ▸ addOrderOf_dvd_natCard X
  have hm1 : ℓ ^ m.2 ∣ Nat.card (W A).Point := by
    rcases hm.2 with h0 | ⟨Y, hY, _⟩
    · rw [h0]; simp
    · exact hY ▸ addOrderOf_dvd_natCard Y
  have hm2 := hm.1
  by_cases hpe : pointEqual T m.1 = true
  · simp only [hpe, if_true]; exact ⟨by omega, hm1⟩
  · simp only [hpe]
    refine ⟨by simp; omega, ?_⟩
    simp only [Bool.false_eq_true, if_false]
    rcases Nat.eq_zero_or_pos h with rfl | hpos
    · simpa using hm1
    · rcases hm.2 with h0 | ⟨Y, hY, hYT⟩
      · rw [h0]; simpa using hdvd
      · obtain ⟨n1, n2⟩ := pointEqual_false (hT hpos) hYT (by simpa using hpe)
        have := card_dvd_of_disjoint (disjoint_of_last hℓ hX hY n1 n2)
        rw [hX, hY, ← pow_add, add_comm] at this
        exact this

theorem MaxInv.upd {A : F} {ℓ e h : ℕ} {m : Pt F × ℕ} (hm : MaxInv A ℓ e m) {T : Pt F} {X : (W A).Point}
    (hh : h ≤ e) (hX : addOrderOf X = ℓ ^ h) (hT : 0 < h → Rep T (ℓ ^ (h - 1) • X)) :
    MaxInv A ℓ e (if h > m.2 then (T, h) else m) := by
  by_cases hgt : h > m.2
  · simp only [hgt, if_true]
    exact ⟨hh, Or.inr ⟨X, hX, hT (by omega)⟩⟩
  · simp only [hgt, if_false]; exact hm

/-- What acceptance shows. -/
def Accepted (env : Env F) (po : ProvesOrder) (A : F) : Prop :=
  ∃ a b, a ≤ 2 * env.e2 ∧ b ≤ 2 * env.e3 ∧ po a b = true ∧ 2 ^ a ∣ Nat.card (W A).Point ∧
    3 ^ b ∣ Nat.card (W A).Point

theorem checkCurveLoop_true (po : ProvesOrder) (junk : ℕ → Pt F × Pt F) (h2F : (2 : F) ≠ 0) {A : F}
    [Finite (W A).Point] (hA : A ^ 2 ≠ 4) {a am c : F} (h24 : Is24 A a c) (hpm : IsPM A am a) :
    ∀ (n : ℕ) (max2 max3 : Pt F × ℕ), MaxInv A 2 env.e2 max2 → MaxInv A 3 env.e3 max3 →
      Ret (checkCurveLoop env po junk A a am c n max2 max3) (fun r => r = true → Accepted env po A)
  | 0, _, _, _, _ => Ret.abort
  | n + 1, max2, max3, hm2, hm3 => by
    unfold checkCurveLoop
    refine Ret.bind (randomPoint_ret h2F hA) (fun P hP => ?_)
    obtain ⟨_, Y, hY⟩ := hP
    simp only
    have hQ := xTPLe_rep h2F hpm env.e3 hY
    rcases hv2 : valLoop (fun Q => xDBL Q a c) env.e2 0 (junk n).1 (xTPLe P am a env.e3) with ⟨h2, T2, Q2⟩
    obtain ⟨d, hd, e1, e2, e3, e4, e5, e6⟩ := valLoop_spec (ℓ := 2)
      (fun q X hq => xDBL_rep h2F h24 hq) _ _ _ _ _ _ _ _ hQ hv2
    simp only [zero_add] at e1
    subst e1
    simp only
    by_cases hz : Q2.Z ≠ 0
    · simp only [hz, not_false_eq_true, if_true, ne_eq]
      exact Ret.pure (by simp)
    have hz' : Q2.Z = 0 := not_not.1 hz
    simp only [hz', ne_eq, not_true_eq_false, if_false]
    have hX2 := addOrderOf_of_first Nat.prime_two (e2.Z_iff.1 hz') e3
    obtain ⟨b2, o2⟩ := ord_dvd (Or.inl rfl) hm2 hd hX2 e5
    generalize hord2 : (if pointEqual T2 max2.1 = true then max2.2 else max2.2 + h2) = ord2 at b2 o2
    have hm3d : 3 ^ max3.2 ∣ Nat.card (W A).Point := by
      rcases hm3.2 with h0 | ⟨Z, hZ, _⟩
      · rw [h0]; simp
      · exact hZ ▸ addOrderOf_dvd_natCard Z
    by_cases hpo : po ord2 max3.2 = true
    · simp only [hpo, if_true]
      exact Ret.pure (fun _ => ⟨ord2, max3.2, b2, by have := hm3.1; omega, hpo, o2, hm3d⟩)
    simp only [hpo]
    simp only [Bool.false_eq_true, if_false]
    have hQ' := xDBLe_rep h2F h24 h2 hY
    rcases hv3 : valLoop (fun Q => xTPL Q am a) env.e3 0 (junk n).2 (xDBLe P a c h2) with ⟨h3, T3, Q3⟩
    obtain ⟨d3, hd3, f1, f2, f3, f4, f5, f6⟩ := valLoop_spec (ℓ := 3)
      (fun q X hq => xTPL_rep h2F hpm hq) _ _ _ _ _ _ _ _ hQ' hv3
    simp only [zero_add] at f1
    subst f1
    simp only
    by_cases hz3 : Q3.Z ≠ 0
    · simp only [hz3, not_false_eq_true, if_true, ne_eq]
      exact Ret.pure (by simp)
    have hz3' : Q3.Z = 0 := not_not.1 hz3
    simp only [hz3', ne_eq, not_true_eq_false, if_false]
    have hX3 := addOrderOf_of_first Nat.prime_three (f2.Z_iff.1 hz3') f3
    obtain ⟨b3, o3⟩ := ord_dvd (Or.inr rfl) hm3 hd3 hX3 f5
    generalize hord3 : (if pointEqual T3 max3.1 = true then max3.2 else max3.2 + h3) = ord3 at b3 o3
    by_cases hpo3 : po ord2 ord3 = true
    · simp only [hpo3, if_true]
      exact Ret.pure (fun _ => ⟨ord2, ord3, b2, b3, hpo3, o2, o3⟩)
    simp only [hpo3]
    simp only [Bool.false_eq_true, if_false]
    exact checkCurveLoop_true po junk h2F hA h24 hpm n _ _ (hm2.upd hd hX2 e5) (hm3.upd hd3 hX3 f5)

theorem checkCurve_true (po : ProvesOrder) (junk : ℕ → Pt F × Pt F) (h2F : (2 : F) ≠ 0) {A : F}
    [Finite (W A).Point] (hA : A ^ 2 ≠ 4) :
    Ret (checkCurve env po junk ⟨A, 1⟩) (fun r => r = true → Accepted env po A) := by
  obtain ⟨h24, hpm⟩ := acToAac24_is24 (⟨A, 1⟩ : Crv F) one_ne_zero
  simp only [div_one] at h24 hpm
  exact checkCurveLoop_true po junk h2F hA h24 hpm _ _ _ ⟨Nat.zero_le _, Or.inl rfl⟩
    ⟨Nat.zero_le _, Or.inl rfl⟩

/-! ### Never rejected -/

theorem checkCurveLoop_false (po : ProvesOrder) (junk : ℕ → Pt F × Pt F) (h2F : (2 : F) ≠ 0) {A : F}
    (hA : A ^ 2 ≠ 4) {a am c : F} (h24 : Is24 A a c) (hpm : IsPM A am a)
    (hk : ∀ X : (W A).Point, (2 ^ env.e2 * 3 ^ env.e3) • X = 0) :
    ∀ (n : ℕ) (max2 max3 : Pt F × ℕ),
      Ret (checkCurveLoop env po junk A a am c n max2 max3) (fun r => r = true)
  | 0, _, _ => Ret.abort
  | n + 1, max2, max3 => by
    unfold checkCurveLoop
    refine Ret.bind (randomPoint_ret h2F hA) (fun P hP => ?_)
    obtain ⟨_, Y, hY⟩ := hP
    simp only
    have hQ := xTPLe_rep h2F hpm env.e3 hY
    rcases hv2 : valLoop (fun Q => xDBL Q a c) env.e2 0 (junk n).1 (xTPLe P am a env.e3) with ⟨h2, T2, Q2⟩
    obtain ⟨d, hd, e1, e2, e3, e4, e5, e6⟩ := valLoop_spec (ℓ := 2)
      (fun q X hq => xDBL_rep h2F h24 hq) _ _ _ _ _ _ _ _ hQ hv2
    simp only [zero_add] at e1
    subst e1
    have h0 : 2 ^ h2 • 3 ^ env.e3 • Y = 0 := by
      rcases Nat.lt_or_ge h2 env.e2 with hlt | hge
      · exact e6 hlt
      · have : h2 = env.e2 := le_antisymm hd hge
        rw [this, ← mul_nsmul']; exact hk Y
    have hz' : Q2.Z = 0 := e2.Z_iff.2 h0
    simp only [hz', ne_eq, not_true_eq_false, if_false]
    generalize (if pointEqual T2 max2.1 = true then max2.2 else max2.2 + h2) = ord2
    by_cases hpo : po ord2 max3.2 = true
    · simp only [hpo, if_true]
      exact Ret.pure rfl
    simp only [hpo]
    simp only [Bool.false_eq_true, if_false]
    have hQ' := xDBLe_rep h2F h24 h2 hY
    rcases hv3 : valLoop (fun Q => xTPL Q am a) env.e3 0 (junk n).2 (xDBLe P a c h2) with ⟨h3, T3, Q3⟩
    obtain ⟨d3, hd3, f1, f2, f3, f4, f5, f6⟩ := valLoop_spec (ℓ := 3)
      (fun q X hq => xTPL_rep h2F hpm hq) _ _ _ _ _ _ _ _ hQ' hv3
    simp only [zero_add] at f1
    subst f1
    have h0' : 3 ^ h3 • 2 ^ h2 • Y = 0 := by
      rcases Nat.lt_or_ge h3 env.e3 with hlt | hge
      · exact f6 hlt
      · have : h3 = env.e3 := le_antisymm hd3 hge
        rw [this, ← mul_nsmul', mul_comm, mul_nsmul']; exact h0
    have hz3' : Q3.Z = 0 := f2.Z_iff.2 h0'
    simp only [hz3', ne_eq, not_true_eq_false, if_false]
    generalize (if pointEqual T3 max3.1 = true then max3.2 else max3.2 + h3) = ord3
    by_cases hpo3 : po ord2 ord3 = true
    · simp only [hpo3, if_true]
      exact Ret.pure rfl
    simp only [hpo3]
    simp only [Bool.false_eq_true, if_false]
    exact checkCurveLoop_false po junk h2F hA h24 hpm hk n _ _

theorem checkCurve_false (po : ProvesOrder) (junk : ℕ → Pt F × Pt F) (h2F : (2 : F) ≠ 0) {A : F}
    (hA : A ^ 2 ≠ 4) (hk : ∀ X : (W A).Point, (2 ^ env.e2 * 3 ^ env.e3) • X = 0) :
    Ret (checkCurve env po junk ⟨A, 1⟩) (fun r => r = true) := by
  obtain ⟨h24, hpm⟩ := acToAac24_is24 (⟨A, 1⟩ : Crv F) one_ne_zero
  simp only [div_one] at h24 hpm
  exact checkCurveLoop_false po junk h2F hA h24 hpm hk _ _ _

/-! ### Uninitialised memory -/

theorem valLoop_junk (mul : Pt F → Pt F) : ∀ (n h : ℕ) (T T' q : Pt F),
    (valLoop mul n h T q).1 = (valLoop mul n h T' q).1 ∧
    (valLoop mul n h T q).2.2 = (valLoop mul n h T' q).2.2 ∧
    ((valLoop mul n h T q).2.1 = (valLoop mul n h T' q).2.1 ∨ (valLoop mul n h T q).1 = h)
  | 0, h, T, T', q => by simp [valLoop]
  | n + 1, h, T, T', q => by
    simp only [valLoop]
    by_cases hz : q.Z = 0
    · simp [hz]
    · simp [hz]

theorem checkCurveLoop_junk (po : ProvesOrder) (junk junk' : ℕ → Pt F × Pt F) (A a am c : F) :
    ∀ (n : ℕ) (max2 max3 : Pt F × ℕ), checkCurveLoop env po junk A a am c n max2 max3 =
      checkCurveLoop env po junk' A a am c n max2 max3
  | 0, _, _ => rfl
  | n + 1, max2, max3 => by
    unfold checkCurveLoop
    congr 1
    funext P
    obtain ⟨j1, j2, j3⟩ := valLoop_junk (fun Q => xDBL Q a c) env.e2 0 (junk n).1 (junk' n).1
      (xTPLe P am a env.e3)
    simp only
    generalize valLoop (fun Q => xDBL Q a c) env.e2 0 (junk n).1 (xTPLe P am a env.e3) = v2 at j1 j2 j3
    generalize valLoop (fun Q => xDBL Q a c) env.e2 0 (junk' n).1 (xTPLe P am a env.e3) = v2' at j1 j2 j3
    obtain ⟨h2, T2, Q2⟩ := v2
    obtain ⟨h2', T2', Q2'⟩ := v2'
    simp only at j1 j2 j3 ⊢
    subst j1 j2
    have o2 : (if pointEqual T2 max2.1 = true then max2.2 else max2.2 + h2) =
        (if pointEqual T2' max2.1 = true then max2.2 else max2.2 + h2) := by
      rcases j3 with rfl | rfl
      · rfl
      · simp
    have m2 : (if h2 > max2.2 then (T2, h2) else max2) = (if h2 > max2.2 then (T2', h2) else max2) := by
      rcases j3 with rfl | rfl
      · rfl
      · simp
    rw [o2, m2]
    obtain ⟨k1, k2, k3⟩ := valLoop_junk (fun Q => xTPL Q am a) env.e3 0 (junk n).2 (junk' n).2
      (xDBLe P a c h2)
    generalize valLoop (fun Q => xTPL Q am a) env.e3 0 (junk n).2 (xDBLe P a c h2) = v3 at k1 k2 k3
    generalize valLoop (fun Q => xTPL Q am a) env.e3 0 (junk' n).2 (xDBLe P a c h2) = v3' at k1 k2 k3
    obtain ⟨h3, T3, Q3⟩ := v3
    obtain ⟨h3', T3', Q3'⟩ := v3'
    simp only at k1 k2 k3 ⊢
    subst k1 k2
    have o3 : (if pointEqual T3 max3.1 = true then max3.2 else max3.2 + h3) =
        (if pointEqual T3' max3.1 = true then max3.2 else max3.2 + h3) := by
      rcases k3 with rfl | rfl
      · rfl
      · simp
    have m3 : (if h3 > max3.2 then (T3, h3) else max3) = (if h3 > max3.2 then (T3', h3) else max3) := by
      rcases k3 with rfl | rfl
      · rfl
      · simp
    rw [o3, m3]
    simp only [checkCurveLoop_junk po junk junk' A a am c n]

theorem checkCurve_junk (po : ProvesOrder) (junk junk' : ℕ → Pt F × Pt F) (E : Crv F) :
    checkCurve env po junk E = checkCurve env po junk' E := by
  unfold checkCurve
  exact checkCurveLoop_junk po junk junk' _ _ _ _ _ _ _

/-! ### Singular coefficients -/

/-- The second-to-last value of a valuation loop with more than one step was produced by `mul`. -/
theorem valLoop_last {mul : Pt F → Pt F} : ∀ (n h : ℕ) (T q : Pt F) (h' : ℕ) (T' q' : Pt F),
    valLoop mul n h T q = (h', T', q') →
    h ≤ h' ∧ h' ≤ h + n ∧ (h' = h ∨ (h < h' ∧ T'.Z ≠ 0 ∧ q' = mul T' ∧ (h' = h + 1 → T' = q) ∧
      (h' ≠ h + 1 → ∃ s : Pt F, s.Z ≠ 0 ∧ T' = mul s)))
  | 0, h, T, q, h', T', q', e => by
    simp only [valLoop, Prod.mk.injEq] at e
    obtain ⟨rfl, rfl, rfl⟩ := e
    exact ⟨le_refl _, le_refl _, Or.inl rfl⟩
  | n + 1, h, T, q, h', T', q', e => by
    simp only [valLoop] at e
    by_cases hz : q.Z = 0
    · simp only [hz, if_true, Prod.mk.injEq] at e
      obtain ⟨rfl, rfl, rfl⟩ := e
      exact ⟨le_refl _, by omega, Or.inl rfl⟩
    · simp only [hz, if_false] at e
      obtain ⟨g1, g2, g3⟩ := valLoop_last n (h + 1) q (mul q) h' T' q' e
      refine ⟨by omega, by omega, Or.inr ?_⟩
      rcases g3 with g3 | ⟨k0, k1, k2, k3, k4⟩
      · subst g3
        have : T' = q ∧ q' = mul q := by
          cases n with
          | zero => simp only [valLoop, Prod.mk.injEq] at e; exact ⟨e.2.1.symm, e.2.2.symm⟩
          | succ n =>
            simp only [valLoop] at e
            by_cases hz' : (mul q).Z = 0
            · simp only [hz', if_true, Prod.mk.injEq] at e; exact ⟨e.2.1.symm, e.2.2.symm⟩
            · simp only [hz', if_false] at e
              have := (valLoop_last n (h + 1 + 1) _ _ _ _ _ e).1
              omega
        obtain ⟨rfl, rfl⟩ := this
        exact ⟨by omega, hz, rfl, fun _ => rfl, fun h => absurd rfl h⟩
      · refine ⟨by omega, k1, k2, fun h => by omega, fun hne => ?_⟩
        by_cases h1 : h' = h + 1 + 1
        · exact ⟨q, hz, k3 h1⟩
        · exact k4 h1

/-- The node of the singular curve with coefficient `2ε`. -/
def Node (ε : F) (p : Pt F) : Prop := p.X + ε * p.Z = 0

theorem sq_one {ε : F} (hε : ε ^ 2 = 1) : ε = 1 ∨ ε = -1 := by
  have : (ε - 1) * (ε + 1) = 0 := by linear_combination hε
  rcases mul_eq_zero.1 this with h | h
  · left; linear_combination h
  · right; linear_combination h

theorem xDBL_node {ε : F} (hε : ε ^ 2 = 1) (p : Pt F) :
    (xDBL p (2 * ε + (1 + 1)) (1 + 1 + (1 + 1))).Z = 16 * (p.X * p.Z * (p.X + ε * p.Z) ^ 2) ∧
    (xDBL p (2 * ε + (1 + 1)) (1 + 1 + (1 + 1))).X + ε * (xDBL p (2 * ε + (1 + 1)) (1 + 1 + (1 + 1))).Z =
      4 * (p.X + ε * p.Z) ^ 4 := by
  simp only [xDBL]
  rcases sq_one hε with rfl | rfl <;> constructor <;> ring

theorem xTPL_node {ε : F} (hε : ε ^ 2 = 1) (p : Pt F) :
    (xTPL p (2 * ε + (1 + 1) - (1 + 1 + (1 + 1))) (2 * ε + (1 + 1))).Z =
      32 * (p.Z * ((p.X + ε * p.Z) ^ 3 * (3 * p.X - ε * p.Z)) ^ 2) ∧
    (xTPL p (2 * ε + (1 + 1) - (1 + 1 + (1 + 1))) (2 * ε + (1 + 1))).X +
      ε * (xTPL p (2 * ε + (1 + 1) - (1 + 1 + (1 + 1))) (2 * ε + (1 + 1))).Z = 32 * (p.X + ε * p.Z) ^ 9 := by
  simp only [xTPL]
  rcases sq_one hε with rfl | rfl <;> constructor <;> ring

theorem not_node_dbl {ε : F} (h2F : (2 : F) ≠ 0) (hε : ε ^ 2 = 1) {s : Pt F}
    (hz : (xDBL s (2 * ε + (1 + 1)) (1 + 1 + (1 + 1))).Z ≠ 0) :
    ¬ Node ε (xDBL s (2 * ε + (1 + 1)) (1 + 1 + (1 + 1))) := by
  intro h
  obtain ⟨e1, e2⟩ := xDBL_node hε s
  unfold Node at h
  rw [e2] at h
  have h4 := four_ne_zero_of h2F
  have : s.X + ε * s.Z = 0 := by simpa [h4] using h
  rw [this] at e1
  exact hz (by rw [e1]; ring)

theorem not_node_tpl {ε : F} (h2F : (2 : F) ≠ 0) (hε : ε ^ 2 = 1) {s : Pt F}
    (hz : (xTPL s (2 * ε + (1 + 1) - (1 + 1 + (1 + 1))) (2 * ε + (1 + 1))).Z ≠ 0) :
    ¬ Node ε (xTPL s (2 * ε + (1 + 1) - (1 + 1 + (1 + 1))) (2 * ε + (1 + 1))) := by
  intro h
  obtain ⟨e1, e2⟩ := xTPL_node hε s
  unfold Node at h
  rw [e2] at h
  have h32 : (32 : F) ≠ 0 := by
    have : (32 : F) = 2 ^ 5 := by norm_num
    rw [this]; exact pow_ne_zero _ h2F
  have : s.X + ε * s.Z = 0 := by simpa [h32] using h
  rw [this] at e1
  exact hz (by rw [e1]; ring)

theorem xTPLe_last (p : Pt F) (a c : F) : ∀ e, 1 ≤ e → ∃ s, xTPLe p a c e = xTPL s a c
  | 0, h => absurd h (by norm_num)
  | 1, _ => ⟨p, rfl⟩
  | e + 2, _ => by
    obtain ⟨s, hs⟩ := xTPLe_last (xTPL p a c) a c (e + 1) (by omega)
    exact ⟨s, hs⟩

/-- The content of `max2` when the curve is singular. -/
def SMax2 (e : ℕ) (m : Pt F × ℕ) : Prop := m.2 ≤ e ∧ (m.2 = 0 ∨ m.1.X = 0)

/-- The content of `max3` when the curve is singular. -/
def SMax3 (ε : F) (e : ℕ) (m : Pt F × ℕ) : Prop := m.2 ≤ e ∧ (m.2 ≤ 1 ∨ 3 * m.1.X = ε * m.1.Z)

theorem checkCurveLoop_singular (po : ProvesOrder) (junk : ℕ → Pt F × Pt F) (h2F : (2 : F) ≠ 0)
    (h3F : (3 : F) ≠ 0) {ε : F} (hε : ε ^ 2 = 1) (he3 : 1 ≤ env.e3)
    (hpo : ∀ a b, a ≤ env.e2 → b ≤ env.e3 + 1 → po a b = false) :
    ∀ (n : ℕ) (max2 max3 : Pt F × ℕ), SMax2 env.e2 max2 → SMax3 ε env.e3 max3 →
      Ret (checkCurveLoop env po junk (2 * ε) (2 * ε + (1 + 1)) (2 * ε + (1 + 1) - (1 + 1 + (1 + 1)))
        (1 + 1 + (1 + 1)) n max2 max3) (fun r => r = false)
  | 0, _, _, _, _ => Ret.abort
  | n + 1, max2, max3, hm2, hm3 => by
    have h4 := four_ne_zero_of h2F
    have h16 : (16 : F) ≠ 0 := by
      have : (16 : F) = 2 ^ 4 := by norm_num
      rw [this]; exact pow_ne_zero _ h2F
    have h32 : (32 : F) ≠ 0 := by
      have : (32 : F) = 2 ^ 5 := by norm_num
      rw [this]; exact pow_ne_zero _ h2F
    unfold checkCurveLoop
    refine Ret.bind (Q := fun _ => True) (fun _ _ _ _ => trivial) (fun P _ => ?_)
    simp only
    rcases hv2 : valLoop (fun Q => xDBL Q (2 * ε + (1 + 1)) (1 + 1 + (1 + 1))) env.e2 0 (junk n).1
      (xTPLe P (2 * ε + (1 + 1) - (1 + 1 + (1 + 1))) (2 * ε + (1 + 1)) env.e3) with ⟨h2, T2, Q2⟩
    obtain ⟨g1, g2, g3⟩ := valLoop_last _ _ _ _ _ _ _ hv2
    simp only
    by_cases hz : Q2.Z ≠ 0
    · simp only [hz, not_false_eq_true, if_true, ne_eq]
      exact Ret.pure rfl
    have hz' : Q2.Z = 0 := not_not.1 hz
    simp only [hz', ne_eq, not_true_eq_false, if_false]
    have hT2 : h2 = 0 ∨ T2.X = 0 := by
      rcases g3 with g3 | ⟨k0, k1, k2, k3, k4⟩
      · exact Or.inl g3
      right
      have hnn : ¬ Node ε T2 := by
        by_cases h1 : h2 = 0 + 1
        · obtain ⟨s, hs⟩ := xTPLe_last P (2 * ε + (1 + 1) - (1 + 1 + (1 + 1))) (2 * ε + (1 + 1)) env.e3 he3
          have := k3 h1
          rw [hs] at this
          rw [this] at k1 ⊢
          exact not_node_tpl h2F hε k1
        · obtain ⟨s, _, hs⟩ := k4 h1
          rw [hs] at k1 ⊢
          exact not_node_dbl h2F hε k1
      have := (xDBL_node hε T2).1
      rw [← k2, hz'] at this
      have := this.symm
      simp only [mul_eq_zero, h16, k1, pow_eq_zero_iff, ne_eq, OfNat.ofNat_ne_zero, not_false_eq_true,
        false_or, or_false] at this
      exact this.resolve_right hnn
    have ho2 : (if pointEqual T2 max2.1 = true then max2.2 else max2.2 + h2) ≤ env.e2 := by
      have := hm2.1
      split
      · omega
      · rename_i hne
        rcases hT2 with h0 | h0
        · omega
        · rcases hm2.2 with h1 | h1
          · omega
          · exact absurd (by simp [pointEqual, projEqual, h0, h1]) hne
    have hm2' : SMax2 env.e2 (if h2 > max2.2 then (T2, h2) else max2) := by
      split
      · exact ⟨by simpa using g2, hT2⟩
      · exact hm2
    generalize (if pointEqual T2 max2.1 = true then max2.2 else max2.2 + h2) = ord2 at ho2
    have p1 : po ord2 max3.2 = false := hpo _ _ ho2 (by have := hm3.1; omega)
    simp only [p1, Bool.false_eq_true, if_false]
    rcases hv3 : valLoop (fun Q => xTPL Q (2 * ε + (1 + 1) - (1 + 1 + (1 + 1))) (2 * ε + (1 + 1))) env.e3 0
      (junk n).2 (xDBLe P (2 * ε + (1 + 1)) (1 + 1 + (1 + 1)) h2) with ⟨h3, T3, Q3⟩
    obtain ⟨j1, j2, j3⟩ := valLoop_last _ _ _ _ _ _ _ hv3
    simp only
    by_cases hz3 : Q3.Z ≠ 0
    · simp only [hz3, not_false_eq_true, if_true, ne_eq]
      exact Ret.pure rfl
    have hz3' : Q3.Z = 0 := not_not.1 hz3
    simp only [hz3', ne_eq, not_true_eq_false, if_false]
    have hT3 : h3 ≤ 1 ∨ 3 * T3.X = ε * T3.Z := by
      rcases j3 with j3 | ⟨k0, k1, k2, k3, k4⟩
      · left; omega
      by_cases h1 : h3 = 0 + 1
      · left; omega
      right
      obtain ⟨s, _, hs⟩ := k4 h1
      have hnn : ¬ Node ε T3 := by
        rw [hs] at k1 ⊢
        exact not_node_tpl h2F hε k1
      have := (xTPL_node hε T3).1
      rw [← k2, hz3'] at this
      have := this.symm
      simp only [mul_eq_zero, h32, k1, pow_eq_zero_iff, ne_eq, OfNat.ofNat_ne_zero, not_false_eq_true,
        false_or] at this
      exact sub_eq_zero.1 (this.resolve_left hnn)
    have ho3 : (if pointEqual T3 max3.1 = true then max3.2 else max3.2 + h3) ≤ env.e3 + 1 := by
      have := hm3.1
      split
      · omega
      · rename_i hne
        rcases hT3 with h0 | h0
        · omega
        · rcases hm3.2 with h1 | h1
          · omega
          · refine absurd ?_ hne
            simp only [pointEqual, projEqual, decide_eq_true_eq]
            apply mul_left_cancel₀ h3F
            linear_combination max3.1.Z * h0 - T3.Z * h1
    have hm3' : SMax3 ε env.e3 (if h3 > max3.2 then (T3, h3) else max3) := by
      split
      · exact ⟨by simpa using j2, hT3⟩
      · exact hm3
    generalize (if pointEqual T3 max3.1 = true then max3.2 else max3.2 + h3) = ord3 at ho3
    have p2 : po ord2 ord3 = false := hpo _ _ ho2 ho3
    simp only [p2, Bool.false_eq_true, if_false]
    exact checkCurveLoop_singular po junk h2F h3F hε he3 hpo n _ _ hm2' hm3'

theorem checkCurve_singular (po : ProvesOrder) (junk : ℕ → Pt F × Pt F) (h2F : (2 : F) ≠ 0)
    (h3F : (3 : F) ≠ 0) {A : F} (hA : A ^ 2 = 4) (he3 : 1 ≤ env.e3)
    (hpo : ∀ a b, a ≤ env.e2 → b ≤ env.e3 + 1 → po a b = false) :
    Ret (checkCurve env po junk ⟨A, 1⟩) (fun r => r = false) := by
  obtain ⟨ε, hε, rfl⟩ : ∃ ε : F, ε ^ 2 = 1 ∧ A = 2 * ε := by
    refine ⟨A / 2, ?_, by field_simp⟩
    rw [div_pow, hA]
    have h4 := four_ne_zero_of h2F
    have : (2 : F) ^ 2 = 4 := by norm_num
    rw [this, div_self h4]
  exact checkCurveLoop_singular po junk h2F h3F hε he3 hpo _ _ _ ⟨Nat.zero_le _, Or.inl rfl⟩
    ⟨Nat.zero_le _, Or.inl (Nat.zero_le _)⟩

/-! ### No undefined behaviour -/

theorem NoUB.ite {α : Type} {c : Prop} [Decidable c] {m m' : M F α} (h : NoUB m) (h' : NoUB m') :
    NoUB (if c then m else m') := by
  by_cases hc : c
  · rwa [if_pos hc]
  · rwa [if_neg hc]

theorem checkCurveLoop_noUB (po : ProvesOrder) (junk : ℕ → Pt F × Pt F) (A a am c : F) :
    ∀ (n : ℕ) (max2 max3 : Pt F × ℕ), NoUB (checkCurveLoop env po junk A a am c n max2 max3)
  | 0, _, _ => NoUB.abort
  | n + 1, max2, max3 => by
    unfold checkCurveLoop
    refine NoUB.bind (randomPoint_noUB _) (fun _ => True) (fun _ _ _ _ => trivial) (fun P _ => ?_)
    simp only
    exact NoUB.ite (NoUB.pure' _) (NoUB.ite (NoUB.pure' _) (NoUB.ite (NoUB.pure' _) (NoUB.ite (NoUB.pure' _)
      (checkCurveLoop_noUB po junk A a am c n _ _))))

theorem checkCurve_noUB (po : ProvesOrder) (junk : ℕ → Pt F × Pt F) (E : Crv F) :
    NoUB (checkCurve env po junk E) := checkCurveLoop_noUB po junk _ _ _ _ _ _ _

end field

end Secuer.Curve
