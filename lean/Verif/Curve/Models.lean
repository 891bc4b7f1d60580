import Verif.Curve.Sem
import Mathlib.AlgebraicGeometry.EllipticCurve.Weierstrass

/-!
# Montgomery models: `all_models`, `canonical_model`, `change_model`, `j_inv`
-/

namespace Secuer.Curve

open Secuer.Mont

variable {F : Type} [Field F]

/-! ### j-invariant -/

theorem jInv_eq {A C : F} (h2 : (2 : F) ≠ 0) (hC : C ≠ 0) :
    jInv A C = 256 * ((A / C) ^ 2 - 3) ^ 3 / ((A / C) ^ 2 - 4) := by
  simp only [jInv]
  have e1 : (A * A - (C * C + C * C) - C * C - C * C) * (C * C * (C * C)) =
      ((A / C) ^ 2 - 4) * C ^ 6 := by field_simp; ring
  have e2 : A * A - (C * C + C * C) - C * C = ((A / C) ^ 2 - 3) * C ^ 2 := by field_simp; ring
  rw [e1, e2]
  by_cases h : (A / C) ^ 2 - 4 = 0
  · simp [h]
  · field_simp; ring

theorem jInv_W {A C : F} (h2 : (2 : F) ≠ 0) (hC : C ≠ 0) [(W (A / C)).IsElliptic] :
    jInv A C = (W (A / C)).j := by
  rw [jInv_eq h2 hC, WeierstrassCurve.j]
  have hd : (W (A / C)).Δ ≠ 0 := by
    have := (W (A / C)).isUnit_Δ
    exact this.ne_zero
  have h16 : (16 : F) ≠ 0 := by
    have : (16 : F) = 2 ^ 4 := by norm_num
    rw [this]; exact pow_ne_zero _ h2
  have hc4 : (W (A / C)).c₄ = 16 * ((A / C) ^ 2 - 3) := by
    simp only [WeierstrassCurve.c₄, WeierstrassCurve.b₂, WeierstrassCurve.b₄, W_a1, W_a2, W_a3, W_a4]
    ring
  rw [W_Δ] at hd
  have h4 : (A / C) ^ 2 - 4 ≠ 0 := right_ne_zero_of_mul hd
  have hu : ((W (A / C)).Δ'⁻¹ : Fˣ) = ((W (A / C)).Δ)⁻¹ := by
    rw [Units.val_inv_eq_inv_val, WeierstrassCurve.coe_Δ']
  rw [hu, hc4, W_Δ]
  generalize A / C = a at h4
  field_simp
  ring

/-! ### Isomorphic Montgomery models -/

/-- `i` describes the isomorphism `x ↦ (x - r) / u2` from the curve with coefficient `A` to the one with
coefficient `B`. -/
structure ModelOK (A : F) (i : Iso F) : Prop where
  u0 : i.u2 ≠ 0
  root : i.r ^ 3 + A * i.r ^ 2 + i.r = 0
  usq : i.u2 ^ 2 = 3 * i.r ^ 2 + 2 * A * i.r + 1
  B : i.B * i.u2 = A + 3 * i.r
  tgt : i.B ^ 2 ≠ 4

theorem ModelOK.id {A : F} (hA : A ^ 2 ≠ 4) : ModelOK A ⟨A, 0, 1⟩ :=
  ⟨one_ne_zero, by simp, by simp, by simp, hA⟩

theorem ModelOK.neg {A : F} (hA : A ^ 2 ≠ 4) : ModelOK A ⟨-A, 0, -1⟩ :=
  ⟨by simp, by simp, by simp, by simp, by simpa using hA⟩

/-- Scaling relation between `B²` and `A` for a nontrivial model. -/
theorem ModelOK.of_root {A r u : F} (h2 : (2 : F) ≠ 0) (hA : A ^ 2 ≠ 4) (hr : r ^ 2 + A * r + 1 = 0)
    (hu : u ^ 2 = r ^ 2 - 1) : ModelOK A ⟨(A + 3 * r) / u, r, u⟩ := by
  have hr0 : r ≠ 0 := by rintro rfl; simp at hr
  have hu0 : u ≠ 0 := by
    rintro rfl
    exact sq_ne_one_of hA hr (by linear_combination -hu)
  refine ⟨hu0, by linear_combination r * hr, by linear_combination hu - 2 * hr, by simp [hu0], ?_⟩
  intro h
  simp only [div_pow] at h
  rw [div_eq_iff (pow_ne_zero _ hu0), hu] at h
  have h1 : r ^ 2 * ((A + 3 * r) ^ 2 - 4 * (r ^ 2 - 1)) = 1 := by
    linear_combination (r ^ 2 + A * r - 1 + 4 * r ^ 2) * hr
  rw [h] at h1
  simp at h1

variable [DecidableEq F] (env : Env F)

/-- The square root routine is right on squares (`fp2sqrt` with `known_square`). -/
def SqrtOK : Prop := ∀ x : F, IsSquare x → env.sqrt x * env.sqrt x = x

/-- All points of order four have rational x-coordinates. -/
def Full4 (A : F) : Prop := IsSquare (A ^ 2 - 4) ∧ ∀ x, x ^ 2 + A * x + 1 = 0 → IsSquare (x ^ 2 - 1)

variable {env}

theorem solveQuadratic_spec (hs : SqrtOK env) (h2 : (2 : F) ≠ 0) {A : F} (hsq : IsSquare (A ^ 2 - 4)) :
    (∀ x, x ^ 2 + A * x + 1 = 0 ↔ x = (solveQuadratic env A).1 ∨ x = (solveQuadratic env A).2) ∧
      (A ^ 2 ≠ 4 → solveQuadraticNum env A = 2) := by
  have e : env.sqrt (A * A - (1 + 1 + (1 + 1))) * env.sqrt (A * A - (1 + 1 + (1 + 1))) = A ^ 2 - 4 := by
    have : A * A - (1 + 1 + (1 + 1)) = A ^ 2 - 4 := by ring
    rw [this]; exact hs _ hsq
  set s := env.sqrt (A * A - (1 + 1 + (1 + 1))) with hsdef
  have e1 : solveQuadratic env A = ((s - A) / 2, (s - A) / 2 - s) := rfl
  rw [e1]
  constructor
  · intro x
    have : x ^ 2 + A * x + 1 = (x - (s - A) / 2) * (x - ((s - A) / 2 - s)) := by
      field_simp
      linear_combination e
    rw [this, mul_eq_zero, sub_eq_zero, sub_eq_zero]
  · intro hA
    have hs0 : s ≠ 0 := by
      intro h; apply hA; rw [h] at e; linear_combination -e
    have : (s - A) / 2 ≠ (s - A) / 2 - s := by
      intro h; apply hs0; linear_combination h
    simp only [solveQuadraticNum]
    rw [e1]
    simp [this]

theorem modelAt_ok (hs : SqrtOK env) (h2 : (2 : F) ≠ 0) {A r : F} (hA : A ^ 2 ≠ 4)
    (hr : r ^ 2 + A * r + 1 = 0) (hsq : IsSquare (r ^ 2 - 1)) :
    let x4 := solveQuadratic env (-(r + r))
    ModelOK A (modelAt A r x4.1) ∧ ModelOK A (modelAt A r x4.2) ∧
      (modelAt A r x4.2).B = -(modelAt A r x4.1).B ∧ solveQuadraticNum env (-(r + r)) = 2 := by
  intro x4
  have h4 := four_ne_zero_of h2
  have hsq' : IsSquare ((-(r + r)) ^ 2 - 4) := by
    obtain ⟨s, hs⟩ := hsq
    exact ⟨2 * s, by linear_combination 4 * hs⟩
  obtain ⟨hroots, hnum⟩ := solveQuadratic_spec hs h2 hsq'
  have hne : (-(r + r)) ^ 2 ≠ 4 := by
    intro h
    have : 4 * (r ^ 2 - 1) = 0 := by linear_combination h
    rcases mul_eq_zero.1 this with h' | h'
    · exact h4 h'
    · exact sq_ne_one_of hA hr (by linear_combination h')
  have key : ∀ x, x ^ 2 + -(r + r) * x + 1 = 0 → ModelOK A (modelAt A r x) := by
    intro x hx
    have : modelAt A r x = ⟨(A + 3 * r) / (x - r), r, x - r⟩ := by
      simp only [modelAt, fp2div]
      congr 1
      rw [div_eq_mul_inv]; ring
    rw [this]
    exact ModelOK.of_root h2 hA hr (by linear_combination hx)
  refine ⟨key _ ((hroots _).2 (Or.inl rfl)), key _ ((hroots _).2 (Or.inr rfl)), ?_, hnum hne⟩
  have hsum : x4.2 - r = -(x4.1 - r) := by
    show (solveQuadratic env (-(r + r))).2 - r = -((solveQuadratic env (-(r + r))).1 - r)
    simp only [solveQuadratic]
    field_simp
    ring
  simp only [modelAt, fp2div]
  rw [hsum, inv_neg]; ring

theorem fp2div_eq (X Z : F) : fp2div X Z = X / Z := by rw [fp2div, div_eq_mul_inv]

theorem allModelsUB_false (hs : SqrtOK env) (h2 : (2 : F) ≠ 0) {E : Crv F} (hA : (E.A / E.C) ^ 2 ≠ 4)
    (h4 : Full4 (E.A / E.C)) : allModelsUB env E = false := by
  obtain ⟨hroots, hnum⟩ := solveQuadratic_spec hs h2 h4.1
  have h1 := (hroots _).2 (Or.inl rfl)
  have h3 := (hroots _).2 (Or.inr rfl)
  have k1 := (modelAt_ok hs h2 hA h1 (h4.2 _ h1)).2.2.2
  have k3 := (modelAt_ok hs h2 hA h3 (h4.2 _ h3)).2.2.2
  simp only [allModelsUB, fp2div_eq, hnum hA, k1, k3]
  simp

theorem allModels_ok (hs : SqrtOK env) (h2 : (2 : F) ≠ 0) {E : Crv F} (hA : (E.A / E.C) ^ 2 ≠ 4)
    (h4 : Full4 (E.A / E.C)) : ∀ i ∈ allModels env E, ModelOK (E.A / E.C) i := by
  obtain ⟨hroots, _⟩ := solveQuadratic_spec hs h2 h4.1
  have h1 := (hroots _).2 (Or.inl rfl)
  have h3 := (hroots _).2 (Or.inr rfl)
  obtain ⟨k1, k2, _⟩ := modelAt_ok hs h2 hA h1 (h4.2 _ h1)
  obtain ⟨k3, k4, _⟩ := modelAt_ok hs h2 hA h3 (h4.2 _ h3)
  intro i hi
  simp only [allModels, fp2div_eq, List.mem_cons, List.not_mem_nil, or_false] at hi
  rcases hi with rfl | rfl | rfl | rfl | rfl | rfl
  · exact ModelOK.id hA
  · exact ModelOK.neg hA
  · exact k1
  · exact k2
  · exact k3
  · exact k4

theorem changeModel_ok (hs : SqrtOK env) (h2 : (2 : F) ≠ 0) {E : Crv F} (hA : (E.A / E.C) ^ 2 ≠ 4)
    (h4 : Full4 (E.A / E.C)) :
    ModelOK (E.A / E.C) (changeModel env E).1 ∧ (changeModel env E).1.r ≠ 0 ∧
      (changeModel env E).2 = ⟨E.A / E.C, 0, 1⟩ := by
  obtain ⟨hroots, _⟩ := solveQuadratic_spec hs h2 h4.1
  have h1 := (hroots _).2 (Or.inl rfl)
  obtain ⟨k1, _, _⟩ := modelAt_ok hs h2 hA h1 (h4.2 _ h1)
  simp only [changeModel, fp2div_eq]
  refine ⟨k1, ?_, trivial⟩
  intro h
  have h' : (solveQuadratic env (E.A / E.C)).1 = 0 := h
  rw [h'] at h1
  simp at h1

/-! ### The six models are all models -/

/-- Two nonsingular Montgomery coefficients with equal j-invariant. -/
def SameJ (A B : F) : Prop := (B ^ 2 - 3) ^ 3 * (A ^ 2 - 4) = (A ^ 2 - 3) ^ 3 * (B ^ 2 - 4)

theorem jInv_eq_iff (h2 : (2 : F) ≠ 0) {A C B D : F} (hC : C ≠ 0) (hD : D ≠ 0) (hA : (A / C) ^ 2 ≠ 4)
    (hB : (B / D) ^ 2 ≠ 4) : jInv A C = jInv B D ↔ SameJ (A / C) (B / D) := by
  rw [jInv_eq h2 hC, jInv_eq h2 hD, div_eq_div_iff (sub_ne_zero.2 hA) (sub_ne_zero.2 hB)]
  have h256 : (256 : F) ≠ 0 := by
    have : (256 : F) = 2 ^ 8 := by norm_num
    rw [this]; exact pow_ne_zero _ h2
  unfold SameJ
  constructor
  · intro h
    apply mul_left_cancel₀ h256
    linear_combination -h
  · intro h
    linear_combination -256 * h

theorem ModelOK.sameJ {A : F} {i : Iso F} (h : ModelOK A i) : SameJ A i.B := by
  have hu := h.usq
  have hB : i.B = (A + 3 * i.r) / i.u2 := by rw [eq_div_iff h.u0]; exact h.B
  have hu0 : (3 * i.r ^ 2 + 2 * A * i.r + 1) ≠ 0 := by rw [← hu]; exact pow_ne_zero _ h.u0
  have hB2 : i.B ^ 2 = (A + 3 * i.r) ^ 2 / (3 * i.r ^ 2 + 2 * A * i.r + 1) := by rw [hB, div_pow, hu]
  have hr := h.root
  unfold SameJ
  rw [hB2]
  have hr' : i.r * (i.r ^ 2 + A * i.r + 1) = 0 := by linear_combination hr
  rcases mul_eq_zero.1 hr' with h0 | h0
  · rw [h0]; field_simp; ring
  · have hr0 : i.r ≠ 0 := by
      intro h'; rw [h'] at h0; simp at h0
    have hA : A = -(i.r ^ 2 + 1) / i.r := by field_simp; linear_combination h0
    have hu0' : i.r ^ 2 - 1 ≠ 0 := by
      intro h'; apply hu0; linear_combination h' + 2 * h0
    have e1 : 3 * i.r ^ 2 + 2 * A * i.r + 1 = i.r ^ 2 - 1 := by linear_combination 2 * h0
    rw [e1, hA]
    field_simp
    ring

/-- `all_models` finds every model. -/
theorem allModels_complete (hs : SqrtOK env) (h2 : (2 : F) ≠ 0) {E : Crv F} (hA : (E.A / E.C) ^ 2 ≠ 4)
    (h4 : Full4 (E.A / E.C)) {B : F} (h : SameJ (E.A / E.C) B) :
    ∃ i ∈ allModels env E, i.B = B := by
  obtain ⟨hroots, _⟩ := solveQuadratic_spec hs h2 h4.1
  have h1 := (hroots _).2 (Or.inl rfl)
  have h3 := (hroots _).2 (Or.inr rfl)
  obtain ⟨k1, _, n1, _⟩ := modelAt_ok hs h2 hA h1 (h4.2 _ h1)
  obtain ⟨k3, _, n3, _⟩ := modelAt_ok hs h2 hA h3 (h4.2 _ h3)
  have hmem : ∀ i, i ∈ allModels env E ↔ _ := fun i => by
    simp only [allModels, fp2div_eq, List.mem_cons, List.not_mem_nil, or_false]
    exact Iff.rfl
  set A := E.A / E.C
  have hprod : (solveQuadratic env A).1 * (solveQuadratic env A).2 = 1 := by
    have hn : (solveQuadratic env A).1 ≠ (solveQuadratic env A).2 := by
      intro he
      have := (solveQuadratic_spec hs h2 h4.1).2 hA
      simp only [solveQuadraticNum, he, if_true] at this
      omega
    have := mul_left_cancel₀ (sub_ne_zero.2 hn)
      (show ((solveQuadratic env A).1 - (solveQuadratic env A).2) * ((solveQuadratic env A).1 *
        (solveQuadratic env A).2) = ((solveQuadratic env A).1 - (solveQuadratic env A).2) * 1 by
        linear_combination (solveQuadratic env A).2 * h1 - (solveQuadratic env A).1 * h3)
    exact this
  set r := (solveQuadratic env A).1
  set r' := (solveQuadratic env A).2
  set m := modelAt A r (solveQuadratic env (-(r + r))).1
  set m' := modelAt A r' (solveQuadratic env (-(r' + r'))).1
  have hr0 : r ≠ 0 := left_ne_zero_of_mul_eq_one hprod
  have hr' : r' = 1 / r := by field_simp; linear_combination hprod
  have hrA : A = -(r ^ 2 + 1) / r := by field_simp; linear_combination h1
  have hr1 : r ^ 2 - 1 ≠ 0 := sub_ne_zero.2 (sq_ne_one_of hA h1)
  have sq : ∀ {i : Iso F}, ModelOK A i → i.B ^ 2 * (3 * i.r ^ 2 + 2 * A * i.r + 1) = (A + 3 * i.r) ^ 2 := by
    intro i hi
    rw [← hi.usq, ← mul_pow, hi.B]
  have s1 : m.B ^ 2 * (r ^ 2 - 1) = (A + 3 * r) ^ 2 := by
    have := sq k1
    have e : (3 * r ^ 2 + 2 * A * r + 1) = r ^ 2 - 1 := by linear_combination 2 * h1
    rw [← e]; exact this
  have s3 : m'.B ^ 2 * (r' ^ 2 - 1) = (A + 3 * r') ^ 2 := by
    have := sq k3
    have e : (3 * r' ^ 2 + 2 * A * r' + 1) = r' ^ 2 - 1 := by linear_combination 2 * h3
    rw [← e]; exact this
  have hb1 : m.B ^ 2 = ((2 * r ^ 2 - 1) / r) ^ 2 / (r ^ 2 - 1) := by
    rw [eq_div_iff hr1, s1, hrA]; congr 1; field_simp; ring
  have hb3 : m'.B ^ 2 = (2 - r ^ 2) ^ 2 / (1 - r ^ 2) := by
    have h1r : 1 - r ^ 2 ≠ 0 := by intro h; apply hr1; linear_combination -h
    have : m'.B ^ 2 * ((1 - r ^ 2) / r ^ 2) = ((2 - r ^ 2) / r) ^ 2 := by
      rw [show (1 - r ^ 2) / r ^ 2 = r' ^ 2 - 1 by rw [hr']; field_simp, s3, hrA, hr']
      congr 1; field_simp; ring
    rw [eq_div_iff h1r]
    field_simp at this
    linear_combination this
  have hfac : (B ^ 2 - A ^ 2) * ((B ^ 2 - m.B ^ 2) * (B ^ 2 - m'.B ^ 2)) = 0 := by
    have hA4 : A ^ 2 - 4 ≠ 0 := sub_ne_zero.2 hA
    refine (mul_eq_zero.1 (?_ : (A ^ 2 - 4) * _ = 0)).resolve_left hA4
    have e : (A ^ 2 - 4) * ((B ^ 2 - A ^ 2) * ((B ^ 2 - m.B ^ 2) * (B ^ 2 - m'.B ^ 2))) =
        (B ^ 2 - 3) ^ 3 * (A ^ 2 - 4) - (A ^ 2 - 3) ^ 3 * (B ^ 2 - 4) := by
      have h1r : 1 - r ^ 2 ≠ 0 := by intro h; apply hr1; linear_combination -h
      rw [hb1, hb3, hrA]
      have : (1 - r ^ 2) = -(r ^ 2 - 1) := by ring
      rw [this]
      field_simp
      ring
    rw [e, h, sub_self]
  have fin : ∀ {a b : F}, b ^ 2 - a ^ 2 = 0 → a = b ∨ -a = b := by
    intro a b hab
    have : (b - a) * (b + a) = 0 := by linear_combination hab
    rcases mul_eq_zero.1 this with h | h
    · left; linear_combination -h
    · right; linear_combination -h
  rcases mul_eq_zero.1 hfac with h | h
  · rcases fin h with h | h
    · exact ⟨⟨A, 0, 1⟩, (hmem _).2 (by simp), h⟩
    · exact ⟨⟨-A, 0, -1⟩, (hmem _).2 (by simp), h⟩
  · rcases mul_eq_zero.1 h with h | h
    · rcases fin h with h | h
      · exact ⟨m, (hmem _).2 (by simp [m]), h⟩
      · exact ⟨modelAt A r (solveQuadratic env (-(r + r))).2, (hmem _).2 (by simp), by rw [n1]; exact h⟩
    · rcases fin h with h | h
      · exact ⟨m', (hmem _).2 (by simp [m']), h⟩
      · exact ⟨modelAt A r' (solveQuadratic env (-(r' + r'))).2, (hmem _).2 (by simp), by rw [n3]; exact h⟩

/-! ### The canonical model -/

theorem selectModel_mem (i : Iso F) (l : List (Iso F)) : selectModel env i l ∈ i :: l := by
  induction l generalizing i with
  | nil => simp [selectModel]
  | cons c cs ih =>
    simp only [selectModel]
    have := ih (if modelLt env c.B i.B then c else i)
    rcases List.mem_cons.1 this with h | h
    · rw [h]
      split
      · simp
      · simp
    · simp [h]

theorem modelLt_iff (a b : F) :
    modelLt env a b = true ↔ toLex (env.re a, env.im a) < toLex (env.re b, env.im b) := by
  simp only [modelLt, Prod.Lex.toLex_lt_toLex, Bool.or_eq_true, Bool.and_eq_true, decide_eq_true_eq]

theorem selectModel_le (i : Iso F) (l : List (Iso F)) : ∀ j ∈ i :: l,
    toLex (env.re (selectModel env i l).B, env.im (selectModel env i l).B) ≤
      toLex (env.re j.B, env.im j.B) := by
  induction l generalizing i with
  | nil => intro j hj; simp only [List.mem_singleton] at hj; rw [hj]; exact le_refl _
  | cons c cs ih =>
    intro j hj
    simp only [selectModel]
    by_cases h : modelLt env c.B i.B = true
    · simp only [h, if_true]
      rcases List.mem_cons.1 hj with rfl | hj
      · exact le_trans (ih c c (List.mem_cons_self ..)) (le_of_lt ((modelLt_iff _ _).1 h))
      · exact ih c j hj
    · have h' := h
      rw [modelLt_iff, not_lt] at h'
      simp only [h, if_false, Bool.false_eq_true]
      rcases List.mem_cons.1 hj with rfl | hj
      · exact ih j j (List.mem_cons_self ..)
      · rcases List.mem_cons.1 hj with rfl | hj
        · exact le_trans (ih i i (List.mem_cons_self ..)) h'
        · exact ih i j (List.mem_cons_of_mem _ hj)

theorem canonicalModel_mem (E : Crv F) : canonicalModel env E ∈ allModels env E :=
  selectModel_mem _ _

theorem canonicalModel_le (E : Crv F) : ∀ j ∈ allModels env E,
    toLex (env.re (canonicalModel env E).B, env.im (canonicalModel env E).B) ≤
      toLex (env.re j.B, env.im j.B) :=
  selectModel_le _ _

theorem SameJ.symm {A B : F} (h : SameJ A B) : SameJ B A := by unfold SameJ at *; linear_combination -h

theorem SameJ.trans {A B C : F} (hB : B ^ 2 ≠ 4) (h : SameJ A B) (h' : SameJ B C) : SameJ A C := by
  unfold SameJ at *
  apply mul_left_cancel₀ (sub_ne_zero.2 hB)
  linear_combination (C ^ 2 - 4) * h + (A ^ 2 - 4) * h'

/-- The canonical coefficient depends on the j-invariant only. -/
theorem canonicalModel_congr (hs : SqrtOK env) (h2 : (2 : F) ≠ 0)
    (hinj : ∀ a b : F, env.re a = env.re b → env.im a = env.im b → a = b) {E E' : Crv F}
    (hA : (E.A / E.C) ^ 2 ≠ 4) (h4 : Full4 (E.A / E.C)) (hA' : (E'.A / E'.C) ^ 2 ≠ 4)
    (h4' : Full4 (E'.A / E'.C)) (hj : SameJ (E.A / E.C) (E'.A / E'.C)) :
    (canonicalModel env E).B = (canonicalModel env E').B := by
  have aux : ∀ {E E' : Crv F}, (E.A / E.C) ^ 2 ≠ 4 → Full4 (E.A / E.C) → (E'.A / E'.C) ^ 2 ≠ 4 →
      Full4 (E'.A / E'.C) → SameJ (E.A / E.C) (E'.A / E'.C) →
      toLex (env.re (canonicalModel env E).B, env.im (canonicalModel env E).B) ≤
        toLex (env.re (canonicalModel env E').B, env.im (canonicalModel env E').B) := by
    intro E E' hA h4 hA' h4' hj
    have hm := allModels_ok hs h2 hA' h4' _ (canonicalModel_mem E')
    obtain ⟨i, hi, hiB⟩ := allModels_complete hs h2 hA h4 (hj.trans hA' hm.sameJ)
    rw [← hiB]
    exact canonicalModel_le E i hi
  have h := le_antisymm (aux hA h4 hA' h4' hj) (aux hA' h4' hA h4 hj.symm)
  rw [toLex_inj, Prod.mk.injEq] at h
  exact hinj _ _ h.1 h.2

/-! ### Models as isomorphisms -/

section iso

variable {K : Type} [Field K] [DecidableEq K] [IsAlgClosed K] (φ : F →+* K)

theorem map_evalIso (i : Iso F) (p : Pt F) :
    (evalIso i p).map φ = ⟨(p.map φ).X - φ i.r * (p.map φ).Z, φ i.u2 * (p.map φ).Z⟩ := by
  simp [evalIso, Pt.map]

/-- The map of a model change over `K`. -/
def isoK (i : Iso F) (p : Pt K) : Pt K := ⟨p.X - φ i.r * p.Z, φ i.u2 * p.Z⟩

open MvPolynomial in
theorem defOver_isoK (i : Iso F) : DefOver φ 1 (isoK φ i) := by
  refine ⟨X 0 - C i.r * X 1, C i.u2 * X 1, (isHomogeneous_X F 0).sub ?_, ?_, fun p => ?_⟩
  · simpa using (isHomogeneous_C (Fin 2) i.r).mul (isHomogeneous_X F 1)
  · simpa using (isHomogeneous_C (Fin 2) i.u2).mul (isHomogeneous_X F 1)
  · simp [isoK, eval₂_sub]

theorem ModelOK.isoX {A : F} {i : Iso F} (h : ModelOK A i) (hA : A ^ 2 ≠ 4) :
    IsoX (φ A) (φ i.B) (isoK φ i) := by
  have hu : φ i.u2 ≠ 0 := by simpa using h.u0
  have hx : XHom (φ A) (φ i.B) (isoK φ i) := by
    refine XHom.iso hu ?_ ?_ ?_
    · have := congrArg φ h.root; simpa using this
    · have := congrArg φ h.usq; simpa [map_ofNat] using this
    · have := congrArg φ h.B; simpa [map_ofNat] using this
  refine ⟨hx, sq_ne_four_map φ hA, sq_ne_four_map φ h.tgt, fun p => by simp [isoK, h.u0], ?_⟩
  refine surj_of_affine (by simp [isoK]) hx.nz (fun c => ⟨c * φ i.u2 + φ i.r, ?_⟩)
  simp [isoK]

end iso

end Secuer.Curve
