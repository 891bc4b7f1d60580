import Verif.Curve.Model
import Mathlib.AlgebraicGeometry.EllipticCurve.Affine.Point
import Mathlib.Tactic.Ring
import Mathlib.Tactic.FieldSimp
import Mathlib.Tactic.LinearCombination

/-!
# Montgomery curves: the mathematics the formulas are measured against

Nothing here refers to the code (only the type `Pt` of pairs is shared). `W A` is the curve
`y² = x³ + A x² + x` in Mathlib's sense, with Mathlib's group law on its nonsingular points; `Rep p P`
says that the pair `p = (X : Z)` is a representative of the x-coordinate of the point `P`.
-/

namespace Secuer.Mont

open Secuer.Curve (Pt)

variable {K : Type} [Field K]

/-- The Montgomery curve `y² = x³ + A x² + x`. -/
def W (A : K) : WeierstrassCurve.Affine K := ⟨0, A, 0, 1, 0⟩

@[simp] theorem W_a1 (A : K) : (W A).a₁ = 0 := rfl
@[simp] theorem W_a2 (A : K) : (W A).a₂ = A := rfl
@[simp] theorem W_a3 (A : K) : (W A).a₃ = 0 := rfl
@[simp] theorem W_a4 (A : K) : (W A).a₄ = 1 := rfl
@[simp] theorem W_a6 (A : K) : (W A).a₆ = 0 := rfl

theorem W_equation (A x y : K) : (W A).Equation x y ↔ y ^ 2 = x ^ 3 + A * x ^ 2 + x := by
  rw [WeierstrassCurve.Affine.equation_iff]; simp

@[simp] theorem W_negY (A x y : K) : (W A).negY x y = -y := by
  simp [WeierstrassCurve.Affine.negY]

theorem W_Δ (A : K) : (W A).Δ = 16 * (A ^ 2 - 4) := by
  simp only [WeierstrassCurve.Δ, WeierstrassCurve.b₂, WeierstrassCurve.b₄, WeierstrassCurve.b₆,
    WeierstrassCurve.b₈, W_a1, W_a2, W_a3, W_a4, W_a6]
  ring

/-- On a nonsingular Montgomery curve every solution of the equation is a point. -/
theorem W_nonsingular {A x y : K} (h2 : (2 : K) ≠ 0) (hA : A ^ 2 ≠ 4)
    (h : y ^ 2 = x ^ 3 + A * x ^ 2 + x) : (W A).Nonsingular x y := by
  refine (WeierstrassCurve.Affine.equation_iff_nonsingular_of_Δ_ne_zero ?_).1 ((W_equation A x y).2 h)
  rw [W_Δ]
  have : (16 : K) = 2 ^ 4 := by norm_num
  rw [this]
  exact mul_ne_zero (pow_ne_zero _ h2) (sub_ne_zero.2 hA)

/-- Not the pair `(0 : 0)`. -/
def Nz (p : Pt K) : Prop := p.X ≠ 0 ∨ p.Z ≠ 0

/-- Equality as points of the projective line. -/
def PEq (p q : Pt K) : Prop := ∃ k : K, k ≠ 0 ∧ q.X = k * p.X ∧ q.Z = k * p.Z

theorem PEq.refl (p : Pt K) : PEq p p := ⟨1, one_ne_zero, by simp, by simp⟩

theorem PEq.symm {p q : Pt K} : PEq p q → PEq q p := by
  rintro ⟨k, hk, h1, h2⟩
  exact ⟨k⁻¹, inv_ne_zero hk, by rw [h1]; field_simp, by rw [h2]; field_simp⟩

theorem PEq.trans {p q r : Pt K} : PEq p q → PEq q r → PEq p r := by
  rintro ⟨k, hk, h1, h2⟩ ⟨l, hl, h3, h4⟩
  exact ⟨l * k, mul_ne_zero hl hk, by rw [h3, h1]; ring, by rw [h4, h2]; ring⟩

theorem PEq.nz {p q : Pt K} (h : PEq p q) (hp : Nz p) : Nz q := by
  obtain ⟨k, hk, h1, h2⟩ := h
  rcases hp with h | h
  · left; rw [h1]; exact mul_ne_zero hk h
  · right; rw [h2]; exact mul_ne_zero hk h

theorem PEq.Z_iff {p q : Pt K} (h : PEq p q) : q.Z = 0 ↔ p.Z = 0 := by
  obtain ⟨k, hk, _, h2⟩ := h
  rw [h2]; simp [hk]

theorem PEq.X_iff {p q : Pt K} (h : PEq p q) : q.X = 0 ↔ p.X = 0 := by
  obtain ⟨k, hk, h1, _⟩ := h
  rw [h1]; simp [hk]

theorem PEq.cross {p q : Pt K} (h : PEq p q) : p.X * q.Z = q.X * p.Z := by
  obtain ⟨k, hk, h1, h2⟩ := h
  rw [h1, h2]; ring

theorem peq_of_cross {p q : Pt K} (hp : Nz p) (hq : Nz q) (h : p.X * q.Z = q.X * p.Z) : PEq p q := by
  by_cases hz : p.Z = 0
  · have hx : p.X ≠ 0 := hp.resolve_right (not_not.2 hz)
    rw [hz, mul_zero] at h
    have hqz : q.Z = 0 := (mul_eq_zero.1 h).resolve_left hx
    have hqx : q.X ≠ 0 := hq.resolve_right (not_not.2 hqz)
    refine ⟨q.X / p.X, div_ne_zero hqx hx, by field_simp, by rw [hqz, hz, mul_zero]⟩
  · have hqz : q.Z ≠ 0 := by
      intro hqz
      rw [hqz, mul_zero] at h
      have := (mul_eq_zero.1 h.symm).resolve_right hz
      exact hq.elim (fun h => h this) (fun h => h hqz)
    refine ⟨q.Z / p.Z, div_ne_zero hqz hz, ?_, by field_simp⟩
    field_simp
    linear_combination -h

theorem peq_iff {p q : Pt K} (hp : Nz p) (hq : Nz q) : PEq p q ↔ p.X * q.Z = q.X * p.Z :=
  ⟨PEq.cross, peq_of_cross hp hq⟩

/-- The canonical pair for the x-coordinate of a point: `(1 : 0)` at infinity, `(x : 1)` elsewhere. -/
def xr {A : K} : (W A).Point → Pt K
  | .zero => ⟨1, 0⟩
  | .some x _ _ => ⟨x, 1⟩

/-- `p` represents the x-coordinate of `P`. -/
def Rep {A : K} (p : Pt K) (P : (W A).Point) : Prop := PEq (xr P) p

@[simp] theorem xr_zero {A : K} : xr (0 : (W A).Point) = ⟨1, 0⟩ := rfl
@[simp] theorem xr_some {A x y : K} (h : (W A).Nonsingular x y) :
    xr (.some x y h : (W A).Point) = ⟨x, 1⟩ := rfl

/-- `Rep` in coordinates: infinity is `(X : 0)` with `X ≠ 0`. -/
theorem rep_zero_iff {A : K} (p : Pt K) : Rep p (0 : (W A).Point) ↔ p.Z = 0 ∧ p.X ≠ 0 := by
  constructor
  · rintro ⟨k, hk, h1, h2⟩; simp only [xr_zero] at h1 h2
    exact ⟨by simpa using h2, by rw [h1]; simpa using hk⟩
  · rintro ⟨h1, h2⟩; exact ⟨p.X, h2, by simp, by simp [h1]⟩

/-- `Rep` in coordinates: a finite point `(x, y)` is `(X : Z)` with `Z ≠ 0` and `X = x Z`. -/
theorem rep_some_iff {A x y : K} (h : (W A).Nonsingular x y) (p : Pt K) :
    Rep p (.some x y h : (W A).Point) ↔ p.Z ≠ 0 ∧ p.X = x * p.Z := by
  constructor
  · rintro ⟨k, hk, h1, h2⟩; simp only [xr_some] at h1 h2
    exact ⟨by rw [h2]; simpa using hk, by rw [h1, h2]; ring⟩
  · rintro ⟨h1, h2⟩; exact ⟨p.Z, h1, by simp [h2, mul_comm], by simp⟩

theorem xr_nz {A : K} (P : (W A).Point) : Nz (xr P) := by
  cases P with
  | zero => left; simp [xr]
  | some x y h => right; simp [xr]

theorem rep_xr {A : K} (P : (W A).Point) : Rep (xr P) P := PEq.refl _

theorem Rep.nz {A : K} {p : Pt K} {P : (W A).Point} (h : Rep p P) : Nz p := PEq.nz h (xr_nz P)

theorem Rep.peq {A : K} {p q : Pt K} {P : (W A).Point} (h : Rep p P) (h' : PEq p q) : Rep q P :=
  PEq.trans h h'

theorem Rep.unique {A : K} {p q : Pt K} {P : (W A).Point} (h : Rep p P) (h' : Rep q P) : PEq p q :=
  PEq.trans (PEq.symm h) h'

theorem Rep.Z_iff {A : K} {p : Pt K} {P : (W A).Point} (h : Rep p P) : p.Z = 0 ↔ P = 0 := by
  cases P with
  | zero => exact ⟨fun _ => rfl, fun _ => ((rep_zero_iff p).1 h).1⟩
  | some x y hn =>
    have := ((rep_some_iff hn p).1 h).1
    exact ⟨fun h => absurd h this, fun h => absurd h (WeierstrassCurve.Affine.Point.some_ne_zero hn)⟩

theorem xr_neg {A : K} (P : (W A).Point) : xr (-P) = xr P := by
  cases P with
  | zero => rfl
  | some x y h => rfl

theorem Rep.neg {A : K} {p : Pt K} {P : (W A).Point} (h : Rep p P) : Rep p (-P) := by
  unfold Rep at *; rwa [xr_neg]

/-- Points with the same x-coordinate are equal up to sign. -/
theorem eq_or_neg_of_xr {A : K} {P Q : (W A).Point} (h : PEq (xr P) (xr Q)) : P = Q ∨ P = -Q := by
  cases P with
  | zero =>
    left
    have := (h.Z_iff).2 rfl
    cases Q with
    | zero => rfl
    | some x y h => simp [xr] at this
  | some x y hn =>
    cases Q with
    | zero => have := (h.Z_iff).1 rfl; simp [xr] at this
    | some x' y' hn' =>
      have hx := h.cross
      simp only [xr_some, mul_one] at hx
      subst hx
      have e1 := (W_equation _ _ _).1 hn.1
      have e2 := (W_equation _ _ _).1 hn'.1
      have : (y - y') * (y + y') = 0 := by linear_combination e1 - e2
      rcases mul_eq_zero.1 this with h | h
      · left; have : y = y' := by linear_combination h
        subst this; rfl
      · right; have : y = -y' := by linear_combination h
        subst this
        rw [WeierstrassCurve.Affine.Point.neg_some]
        congr 1
        simp

theorem Rep.eq_or_neg {A : K} {p : Pt K} {P Q : (W A).Point} (h : Rep p P) (h' : Rep p Q) :
    P = Q ∨ P = -Q := eq_or_neg_of_xr (h.trans (PEq.symm h'))

/-! ### The biquadratic forms relating `x(P)`, `x(Q)`, `x(P+Q)` and `x(P-Q)` -/

def b0 (p q : Pt K) : K := (p.X * q.X - p.Z * q.Z) ^ 2
def b1 (A : K) (p q : Pt K) : K :=
  2 * ((p.X * q.Z + q.X * p.Z) * (p.X * q.X + p.Z * q.Z) + 2 * A * p.X * q.X * p.Z * q.Z)
def b2 (p q : Pt K) : K := (p.X * q.Z - q.X * p.Z) ^ 2

/-- `{r, s}` are the x-coordinates of `P + Q` and `P - Q`, expressed on the projective line. -/
def AS (A : K) (p q r s : Pt K) : Prop :=
  ∃ c : K, c ≠ 0 ∧ b0 p q = c * (r.X * s.X) ∧ b1 A p q = c * (r.X * s.Z + r.Z * s.X) ∧
    b2 p q = c * (r.Z * s.Z)

theorem AS.swap {A : K} {p q r s : Pt K} (h : AS A p q r s) : AS A p q s r := by
  obtain ⟨c, hc, h0, h1, h2⟩ := h
  exact ⟨c, hc, by rw [h0]; ring, by rw [h1]; ring, by rw [h2]; ring⟩

theorem AS.comm {A : K} {p q r s : Pt K} (h : AS A p q r s) : AS A q p r s := by
  obtain ⟨c, hc, h0, h1, h2⟩ := h
  exact ⟨c, hc, by rw [← h0]; unfold b0; ring, by rw [← h1]; unfold b1; ring,
    by rw [← h2]; unfold b2; ring⟩

theorem AS.congr {A : K} {p q r s p' q' r' s' : Pt K} (h : AS A p q r s) (hp : PEq p p')
    (hq : PEq q q') (hr : PEq r r') (hs : PEq s s') : AS A p' q' r' s' := by
  obtain ⟨c, hc, h0, h1, h2⟩ := h
  obtain ⟨kp, hkp, p1, p2⟩ := hp
  obtain ⟨kq, hkq, q1, q2⟩ := hq
  obtain ⟨kr, hkr, r1, r2⟩ := hr
  obtain ⟨ks, hks, s1, s2⟩ := hs
  refine ⟨c * (kp * kq) ^ 2 / (kr * ks),
    div_ne_zero (mul_ne_zero hc (pow_ne_zero _ (mul_ne_zero hkp hkq))) (mul_ne_zero hkr hks),
    ?_, ?_, ?_⟩
  · have : b0 p' q' = (kp * kq) ^ 2 * b0 p q := by unfold b0; rw [p1, p2, q1, q2]; ring
    rw [this, h0, r1, s1]; field_simp
  · have : b1 A p' q' = (kp * kq) ^ 2 * b1 A p q := by unfold b1; rw [p1, p2, q1, q2]; ring
    rw [this, h1, r1, s1, r2, s2]; field_simp
  · have : b2 p' q' = (kp * kq) ^ 2 * b2 p q := by unfold b2; rw [p1, p2, q1, q2]; ring
    rw [this, h2, r2, s2]; field_simp

/-- The pair `{r, s}` is determined by `p` and `q`. -/
theorem AS.unique {A : K} {p q r s r' s' : Pt K} (h : AS A p q r s) (h' : AS A p q r' s')
    (hr : Nz r) (hs : Nz s) (hr' : Nz r') (hs' : Nz s') :
    (PEq r r' ∧ PEq s s') ∨ (PEq r s' ∧ PEq s r') := by
  obtain ⟨c, hc, h0, h1, h2⟩ := h
  obtain ⟨d, hd, g0, g1, g2⟩ := h'
  rw [h0] at g0; rw [h1] at g1; rw [h2] at g2
  have key : (r.X * r'.Z - r'.X * r.Z) * (r.X * s'.Z - s'.X * r.Z) = 0 := by
    have : d * ((r.X * r'.Z - r'.X * r.Z) * (r.X * s'.Z - s'.X * r.Z)) = 0 := by
      linear_combination (-r.X ^ 2) * g2 + r.X * r.Z * g1 - r.Z ^ 2 * g0
    exact (mul_eq_zero.1 this).resolve_left hd
  have key' : (s.X * r'.Z - r'.X * s.Z) * (s.X * s'.Z - s'.X * s.Z) = 0 := by
    have : d * ((s.X * r'.Z - r'.X * s.Z) * (s.X * s'.Z - s'.X * s.Z)) = 0 := by
      linear_combination (-s.X ^ 2) * g2 + s.X * s.Z * g1 - s.Z ^ 2 * g0
    exact (mul_eq_zero.1 this).resolve_left hd
  -- once one of the two is matched, so is the other
  have other : ∀ {u v w z : Pt K}, Nz u → Nz v → Nz w → Nz z → PEq u w →
      c * (u.X * v.X) = d * (w.X * z.X) → c * (u.X * v.Z + u.Z * v.X) = d * (w.X * z.Z + w.Z * z.X) →
      c * (u.Z * v.Z) = d * (w.Z * z.Z) → PEq v z := by
    intro u v w z hu hv hw hz huw e0 e1 e2
    obtain ⟨k, hk, k1, k2⟩ := huw
    rw [k1] at e0 e1; rw [k2] at e1 e2
    refine peq_of_cross hv hz ?_
    -- `u ≠ 0`, and `u` times the difference of cross products vanishes twice
    have a1 : u.X * u.X * (v.X * z.Z - z.X * v.Z) = 0 ∧ u.Z * u.Z * (v.X * z.Z - z.X * v.Z) = 0 := by
      constructor
      · have : c * (u.X * u.X * (v.X * z.Z - z.X * v.Z)) = 0 := by
          linear_combination (u.X * z.Z + u.Z * z.X) * e0 - (u.X * z.X) * e1
        exact (mul_eq_zero.1 this).resolve_left hc
      · have : c * (u.Z * u.Z * (v.X * z.Z - z.X * v.Z)) = 0 := by
          linear_combination (u.Z * z.Z) * e1 - (u.X * z.Z + u.Z * z.X) * e2
        exact (mul_eq_zero.1 this).resolve_left hc
    rcases hu with h | h
    · have := (mul_eq_zero.1 a1.1).resolve_left (mul_ne_zero h h)
      linear_combination this
    · have := (mul_eq_zero.1 a1.2).resolve_left (mul_ne_zero h h)
      linear_combination this
  rcases mul_eq_zero.1 key with h | h
  · have hrr' : PEq r r' := peq_of_cross hr hr' (by linear_combination h)
    exact Or.inl ⟨hrr', other hr hs hr' hs' hrr' (by linear_combination g0) (by linear_combination g1)
      (by linear_combination g2)⟩
  · have hrs' : PEq r s' := peq_of_cross hr hs' (by linear_combination h)
    exact Or.inr ⟨hrs', other hr hs hs' hr' hrs' (by linear_combination g0) (by linear_combination g1)
      (by linear_combination g2)⟩

/-- If one of the pair is known, so is the other. -/
theorem AS.unique_right {A : K} {p q r s r' s' : Pt K} (h : AS A p q r s) (h' : AS A p q r' s')
    (hr : Nz r) (hs : Nz s) (hr' : Nz r') (hs' : Nz s') (hss : PEq s s') : PEq r r' := by
  rcases h.unique h' hr hs hr' hs' with h | h
  · exact h.1
  · exact h.1.trans (hss.symm.trans h.2)

variable [DecidableEq K]

open WeierstrassCurve.Affine in
/-- The forms `b0, b1, b2` describe addition and subtraction of points: for all points `P`, `Q` of
the curve, including equal and opposite ones, points of order two and the point at infinity. -/
theorem as_points {A : K} (h2 : (2 : K) ≠ 0) (P Q : (W A).Point) :
    AS A (xr P) (xr Q) (xr (P + Q)) (xr (P - Q)) := by
  have h4 : (4 : K) ≠ 0 := by
    have : (4 : K) = 2 * 2 := by norm_num
    rw [this]; exact mul_ne_zero h2 h2
  cases P with
  | zero =>
    rw [← Point.zero_def, zero_add, zero_sub, xr_neg]
    cases Q with
    | zero => refine ⟨1, one_ne_zero, ?_, ?_, ?_⟩ <;> simp [b0, b1, b2, xr]
    | some x y h => refine ⟨1, one_ne_zero, ?_, ?_, ?_⟩ <;> simp [b0, b1, b2, xr] <;> ring
  | some x₁ y₁ hn₁ =>
  cases Q with
  | zero =>
    rw [← Point.zero_def, add_zero, sub_zero]
    refine ⟨1, one_ne_zero, ?_, ?_, ?_⟩ <;> simp [b0, b1, b2, xr] <;> ring
  | some x₂ y₂ hn₂ =>
  have e1 := (W_equation _ _ _).1 hn₁.1
  have e2 := (W_equation _ _ _).1 hn₂.1
  have hneg : -(Point.some x₂ y₂ hn₂ : (W A).Point) =
      .some x₂ (-y₂) (by simpa using (nonsingular_neg (W' := W A) x₂ y₂).2 hn₂) := by
    rw [Point.neg_some]; congr 1; simp
  rw [sub_eq_add_neg, hneg]
  by_cases hx : x₁ = x₂
  · subst hx
    -- doubling of a point with nonzero ordinate
    have dbl : ∀ (y : K) (hn : (W A).Nonsingular x₁ y), y ≠ 0 →
        4 * y ^ 2 * (xr (Point.some x₁ y hn + .some x₁ y hn : (W A).Point)).X = (x₁ ^ 2 - 1) ^ 2 ∧
          (xr (Point.some x₁ y hn + .some x₁ y hn : (W A).Point)).Z = 1 := by
      intro y hn hy
      have hyn : y ≠ (W A).negY x₁ y := by
        rw [W_negY]; intro h
        have : 2 * y = 0 := by linear_combination h
        exact (mul_ne_zero h2 hy) this
      have e := (W_equation _ _ _).1 hn.1
      rw [Point.add_self_of_Y_ne hyn]
      simp only [xr_some, and_true]
      obtain ⟨l, hl⟩ : ∃ l, (W A).slope x₁ x₁ y y = l := ⟨_, rfl⟩
      rw [hl]
      have hyy : y - -y ≠ 0 := by
        have : y - -y = 2 * y := by ring
        rw [this]; exact mul_ne_zero h2 hy
      have hl' : l * (y - -y) = 3 * x₁ ^ 2 + 2 * A * x₁ + 1 := by
        rw [← hl, slope_of_Y_ne rfl hyn]
        simp only [W_a1, W_a2, W_a4, W_negY]
        rw [div_mul_cancel₀ _ hyy]
        ring
      simp only [addX, W_a1, W_a2]
      linear_combination (2 * y * l + (3 * x₁ ^ 2 + 2 * A * x₁ + 1)) * hl' - 4 * (A + 2 * x₁) * e
    have yy : (y₁ - y₂) * (y₁ + y₂) = 0 := by linear_combination e1 - e2
    rcases mul_eq_zero.1 yy with hy | hy
    · have hy : y₁ = y₂ := by linear_combination hy
      subst hy
      rw [Point.add_of_Y_eq (h₁ := hn₁) (y₂ := -y₁) rfl (by simp)]
      by_cases h0 : y₁ = 0
      · subst h0
        rw [Point.add_of_Y_eq (h₁ := hn₁) (h₂ := hn₂) rfl (by simp)]
        have hx0 : x₁ * (x₁ ^ 2 + A * x₁ + 1) = 0 := by linear_combination -e1
        have hns := ((nonsingular_iff _ _).1 hn₁).2
        simp only [W_a1, W_a2, W_a3, W_a4] at hns
        have hd : 3 * x₁ ^ 2 + 2 * A * x₁ + 1 ≠ 0 := by
          rcases hns with h | h
          · intro h'; apply h; linear_combination -h'
          · exact absurd (by simp) h
        refine ⟨(x₁ ^ 2 - 1) ^ 2, ?_, ?_, ?_, ?_⟩
        · refine pow_ne_zero _ ?_
          intro h
          rcases mul_eq_zero.1 hx0 with h' | h'
          · rw [h'] at h; simp at h
          · apply hd; linear_combination h + 2 * h'
        · simp [b0, xr]; ring
        · simp only [b1, xr_some, xr_zero]; linear_combination 4 * hx0
        · simp [b2, xr]
      · obtain ⟨d1, d2⟩ := dbl y₁ hn₁ h0
        refine ⟨4 * y₁ ^ 2, mul_ne_zero h4 (pow_ne_zero _ h0), ?_, ?_, ?_⟩
        · rw [xr_zero]; simp only [b0, xr_some]; linear_combination -d1
        · rw [xr_zero, d2]; simp only [b1, xr_some]; linear_combination -4 * e1
        · rw [xr_zero]; simp [b2]
    · have hy : y₂ = -y₁ := by linear_combination hy
      subst hy
      rw [Point.add_of_Y_eq (h₁ := hn₁) (h₂ := hn₂) rfl (by simp)]
      by_cases h0 : y₁ = 0
      · subst h0
        rw [Point.add_of_Y_eq (h₁ := hn₁) rfl (by simp)]
        have hx0 : x₁ * (x₁ ^ 2 + A * x₁ + 1) = 0 := by linear_combination -e1
        have hns := ((nonsingular_iff _ _).1 hn₁).2
        simp only [W_a1, W_a2, W_a3, W_a4] at hns
        have hd : 3 * x₁ ^ 2 + 2 * A * x₁ + 1 ≠ 0 := by
          rcases hns with h | h
          · intro h'; apply h; linear_combination -h'
          · exact absurd (by simp) h
        refine ⟨(x₁ ^ 2 - 1) ^ 2, ?_, ?_, ?_, ?_⟩
        · refine pow_ne_zero _ ?_
          intro h
          rcases mul_eq_zero.1 hx0 with h' | h'
          · rw [h'] at h; simp at h
          · apply hd; linear_combination h + 2 * h'
        · simp [b0, xr]; ring
        · simp only [b1, xr_some, xr_zero]; linear_combination 4 * hx0
        · simp [b2, xr]
      · have hnn : (Point.some x₁ (- -y₁) (by simpa using hn₁) : (W A).Point) = .some x₁ y₁ hn₁ := by
          congr 1; simp
        rw [hnn]
        obtain ⟨d1, d2⟩ := dbl y₁ hn₁ h0
        refine ⟨4 * y₁ ^ 2, mul_ne_zero h4 (pow_ne_zero _ h0), ?_, ?_, ?_⟩
        · rw [xr_zero]; simp only [b0, xr_some]; linear_combination -d1
        · rw [xr_zero, d2]; simp only [b1, xr_some]; linear_combination -4 * e1
        · rw [xr_zero]; simp [b2]
  · rw [Point.add_of_X_ne hx, Point.add_of_X_ne hx]
    simp only [xr_some]
    have hd : x₁ - x₂ ≠ 0 := sub_ne_zero.2 hx
    obtain ⟨l, hl⟩ : ∃ l, (W A).slope x₁ x₂ y₁ y₂ = l := ⟨_, rfl⟩
    obtain ⟨m, hm⟩ : ∃ l, (W A).slope x₁ x₂ y₁ (-y₂) = l := ⟨_, rfl⟩
    rw [hl, hm]
    rw [slope_of_X_ne hx, div_eq_iff hd] at hl hm
    refine ⟨(x₁ - x₂) ^ 2, pow_ne_zero _ hd, ?_, ?_, ?_⟩
    · simp only [b0, addX, W_a1, W_a2]
      have hd2 : (x₁ - x₂) ^ 2 ≠ 0 := pow_ne_zero _ hd
      apply mul_left_cancel₀ hd2
      have : (x₁ - x₂) ^ 2 * ((x₁ - x₂) ^ 2 * ((l ^ 2 + 0 * l - A - x₁ - x₂) *
          (m ^ 2 + 0 * m - A - x₁ - x₂))) =
          ((l * (x₁ - x₂)) ^ 2 - (A + x₁ + x₂) * (x₁ - x₂) ^ 2) *
          ((m * (x₁ - x₂)) ^ 2 - (A + x₁ + x₂) * (x₁ - x₂) ^ 2) := by ring
      rw [this, ← hl, ← hm]
      have : ((y₁ - y₂) ^ 2 - (A + x₁ + x₂) * (x₁ - x₂) ^ 2) *
          ((y₁ - -y₂) ^ 2 - (A + x₁ + x₂) * (x₁ - x₂) ^ 2) =
          (y₁ ^ 2 - y₂ ^ 2) ^ 2 - 2 * (y₁ ^ 2 + y₂ ^ 2) * (A + x₁ + x₂) * (x₁ - x₂) ^ 2
            + (A + x₁ + x₂) ^ 2 * (x₁ - x₂) ^ 4 := by ring
      rw [this, e1, e2]
      ring
    · simp only [b1, addX, W_a1, W_a2]
      have : (x₁ - x₂) ^ 2 * ((l ^ 2 + 0 * l - A - x₁ - x₂) * 1 +
          1 * (m ^ 2 + 0 * m - A - x₁ - x₂)) =
          ((l * (x₁ - x₂)) ^ 2 - (A + x₁ + x₂) * (x₁ - x₂) ^ 2) +
          ((m * (x₁ - x₂)) ^ 2 - (A + x₁ + x₂) * (x₁ - x₂) ^ 2) := by ring
      rw [this, ← hl, ← hm]
      linear_combination -2 * e1 - 2 * e2
    · simp [b2]

/-- `as_points` for arbitrary representatives. -/
theorem Rep.as {A : K} (h2 : (2 : K) ≠ 0) {P Q : (W A).Point} {p q r s : Pt K} (hp : Rep p P)
    (hq : Rep q Q) (hr : Rep r (P + Q)) (hs : Rep s (P - Q)) : AS A p q r s :=
  (as_points h2 P Q).congr hp hq hr hs

/-- Pairs related to representatives are never `(0 : 0)`. -/
theorem AS.nz {A : K} (h2 : (2 : K) ≠ 0) {P Q : (W A).Point} {p q r s : Pt K} (hp : Rep p P)
    (hq : Rep q Q) (h : AS A p q r s) : Nz r ∧ Nz s := by
  obtain ⟨d, hd, g0, g1, g2⟩ := hp.as h2 hq (rep_xr _) (rep_xr _)
  obtain ⟨c, hc, h0, h1, h2'⟩ := h
  have aux : ∀ {u v : Pt K}, Nz u → Nz v → u.X * v.X = 0 → u.X * v.Z + u.Z * v.X = 0 →
      u.Z * v.Z = 0 → False := by
    intro u v hu hv e0 e1 e2
    rcases hu with hu | hu
    · have vx := (mul_eq_zero.1 e0).resolve_left hu
      rw [vx, mul_zero, add_zero] at e1
      have vz := (mul_eq_zero.1 e1).resolve_left hu
      exact hv.elim (fun h => h vx) (fun h => h vz)
    · have vz := (mul_eq_zero.1 e2).resolve_left hu
      rw [vz, mul_zero, zero_add] at e1
      have vx := (mul_eq_zero.1 e1).resolve_left hu
      exact hv.elim (fun h => h vx) (fun h => h vz)
  have zz : ∀ {a : K}, d * a = 0 → a = 0 := fun h => (mul_eq_zero.1 h).resolve_left hd
  constructor
  · by_contra hr
    simp only [Nz, not_or, not_not] at hr
    rw [hr.1, zero_mul, mul_zero] at h0
    rw [hr.1, hr.2, zero_mul, zero_mul, add_zero, mul_zero] at h1
    rw [hr.2, zero_mul, mul_zero] at h2'
    exact aux (xr_nz (P + Q)) (xr_nz (P - Q)) (zz (g0 ▸ h0)) (zz (g1 ▸ h1)) (zz (g2 ▸ h2'))
  · by_contra hs
    simp only [Nz, not_or, not_not] at hs
    rw [hs.1, mul_zero, mul_zero] at h0
    rw [hs.1, hs.2, mul_zero, mul_zero, add_zero, mul_zero] at h1
    rw [hs.2, mul_zero, mul_zero] at h2'
    exact aux (xr_nz (P + Q)) (xr_nz (P - Q)) (zz (g0 ▸ h0)) (zz (g1 ▸ h1)) (zz (g2 ▸ h2'))

/-- If `{r, s}` is related to representatives of `P` and `Q`, it represents `P + Q` and `P - Q`. -/
theorem Rep.of_as {A : K} (h2 : (2 : K) ≠ 0) {P Q : (W A).Point} {p q r s : Pt K} (hp : Rep p P)
    (hq : Rep q Q) (h : AS A p q r s) :
    (Rep r (P + Q) ∧ Rep s (P - Q)) ∨ (Rep r (P - Q) ∧ Rep s (P + Q)) := by
  obtain ⟨hr, hs⟩ := h.nz h2 hp hq
  exact ((hp.as h2 hq (rep_xr _) (rep_xr _)).unique h (xr_nz _) (xr_nz _) hr hs).imp
    (fun h => ⟨h.1, h.2⟩) (fun h => ⟨h.2, h.1⟩)

/-- Differential addition in terms of the forms: knowing `x(P - Q)`, the other one is `x(P + Q)`. -/
theorem Rep.of_as_right {A : K} (h2 : (2 : K) ≠ 0) {P Q : (W A).Point} {p q r s : Pt K}
    (hp : Rep p P) (hq : Rep q Q) (hs : Rep s (P - Q)) (h : AS A p q r s) :
    Rep r (P + Q) :=
  (hp.as h2 hq (rep_xr _) (rep_xr _)).unique_right h (xr_nz _) (xr_nz _) (h.nz h2 hp hq).1 hs.nz hs

end Secuer.Mont
