import Verif.Curve.Arith
import Mathlib.FieldTheory.IsAlgClosed.Basic

/-!
# Maps of the projective line that respect addition and subtraction of points

`XHom A A' f`: whenever `{r, s}` are the x-coordinates of `P ± Q` on `W A`, then `{f r, f s}` are the
x-coordinates of the sum and difference of the images of `P`, `Q` on `W A'`. This is what the x-only
isogeny and isomorphism formulas of the code are shown to satisfy; over an algebraically closed field
it follows that `f` commutes with multiplication by integers, that the points sent to infinity form a
subgroup, and that the fibres of `f` are cosets (up to sign) of that subgroup.
-/

namespace Secuer.Mont

open Secuer.Curve (Pt)

variable {K : Type} [Field K]

/-- Maps of x-coordinates compatible with addition and subtraction. -/
structure XHom (A A' : K) (f : Pt K → Pt K) : Prop where
  nz : ∀ p, Nz p → Nz (f p)
  congr : ∀ p q, PEq p q → PEq (f p) (f q)
  as : ∀ p q r s, AS A p q r s → AS A' (f p) (f q) (f r) (f s)

theorem XHom.id (A : K) : XHom A A (fun p => p) := ⟨fun _ h => h, fun _ _ h => h, fun _ _ _ _ h => h⟩

theorem XHom.comp {A B C : K} {f g : Pt K → Pt K} (hg : XHom B C g) (hf : XHom A B f) :
    XHom A C (fun p => g (f p)) :=
  ⟨fun p h => hg.nz _ (hf.nz p h), fun p q h => hg.congr _ _ (hf.congr p q h),
    fun p q r s h => hg.as _ _ _ _ (hf.as p q r s h)⟩

/-- Only the values on the projective line matter. -/
theorem XHom.of_peq {A A' : K} {f g : Pt K → Pt K} (hf : XHom A A' f) (k : K) (hk : k ≠ 0)
    (h : ∀ p, (g p).X = k * (f p).X ∧ (g p).Z = k * (f p).Z) : XHom A A' g := by
  have h' : ∀ p, PEq (f p) (g p) := fun p => ⟨k, hk, (h p).1, (h p).2⟩
  exact ⟨fun p hp => (h' p).nz (hf.nz p hp),
    fun p q hpq => (h' p).symm.trans ((hf.congr p q hpq).trans (h' q)),
    fun p q r s hh => (hf.as p q r s hh).congr (h' p) (h' q) (h' r) (h' s)⟩

/-- Sign change of the model. -/
theorem XHom.neg (A : K) : XHom A (-A) (fun p => ⟨-p.X, p.Z⟩) := by
  refine ⟨fun p hp => hp.imp (fun h => by simpa using h) (fun h => h), ?_, ?_⟩
  · rintro p q ⟨k, hk, h1, h2⟩
    exact ⟨k, hk, by simp only [h1]; ring, h2⟩
  · rintro p q r s ⟨c, hc, e0, e1, e2⟩
    refine ⟨c, hc, ?_, ?_, ?_⟩
    · simp only [b0] at e0 ⊢; linear_combination e0
    · simp only [b1] at e1 ⊢; linear_combination -e1
    · simp only [b2] at e2 ⊢; linear_combination e2

/-- Translation of a 2-torsion point to the origin followed by scaling. -/
theorem XHom.iso {A B r u : K} (hu : u ≠ 0) (hr : r ^ 3 + A * r ^ 2 + r = 0)
    (hu2 : u ^ 2 = 3 * r ^ 2 + 2 * A * r + 1) (hB : B * u = A + 3 * r) :
    XHom A B (fun p => ⟨p.X - r * p.Z, u * p.Z⟩) := by
  refine ⟨?_, ?_, ?_⟩
  · rintro p hp
    by_contra h
    simp only [Nz, not_or, not_not] at h
    have hz := (mul_eq_zero.1 h.2).resolve_left hu
    have hx := h.1
    rw [hz, mul_zero, sub_zero] at hx
    exact hp.elim (fun h => h hx) (fun h => h hz)
  · rintro p q ⟨k, hk, h1, h2⟩
    exact ⟨k, hk, by simp only [h1, h2]; ring, by simp only [h2]; ring⟩
  · rintro p q t s ⟨c, hc, e0, e1, e2⟩
    have h0 : b0 (K := K) ⟨p.X - r * p.Z, u * p.Z⟩ ⟨q.X - r * q.Z, u * q.Z⟩ =
        b0 p q - r * b1 A p q + r ^ 2 * b2 p q := by
      have : b0 (K := K) ⟨p.X - r * p.Z, u * p.Z⟩ ⟨q.X - r * q.Z, u * q.Z⟩ =
        ((p.X - r * p.Z) * (q.X - r * q.Z) - u ^ 2 * (p.Z * q.Z)) ^ 2 := by
        simp only [b0]; ring
      rw [this, hu2]
      by_cases h : r = 0
      · subst h; simp only [b0]; ring
      · have hA : A = -(r ^ 2 + 1) / r := by
          field_simp
          have : r * (r ^ 2 + A * r + 1) = 0 := by linear_combination hr
          linear_combination (mul_eq_zero.1 this).resolve_left h
        subst hA; simp only [b0, b1, b2]; field_simp; ring
    have h1 : b1 B (K := K) ⟨p.X - r * p.Z, u * p.Z⟩ ⟨q.X - r * q.Z, u * q.Z⟩ =
        u * (b1 A p q - 2 * r * b2 p q) := by
      have : b1 B (K := K) ⟨p.X - r * p.Z, u * p.Z⟩ ⟨q.X - r * q.Z, u * q.Z⟩ =
        u * (2 * (((p.X - r * p.Z) * q.Z + (q.X - r * q.Z) * p.Z) * ((p.X - r * p.Z) * (q.X - r * q.Z)
          + u ^ 2 * (p.Z * q.Z)) + 2 * (B * u) * (p.X - r * p.Z) * (q.X - r * q.Z) * p.Z * q.Z)) := by
        simp only [b1]; ring
      rw [this, hB, hu2]
      by_cases h : r = 0
      · subst h; simp only [b1]; ring
      · have hA : A = -(r ^ 2 + 1) / r := by
          field_simp
          have : r * (r ^ 2 + A * r + 1) = 0 := by linear_combination hr
          linear_combination (mul_eq_zero.1 this).resolve_left h
        subst hA; simp only [b1, b2]; field_simp; ring
    have h2 : b2 (K := K) ⟨p.X - r * p.Z, u * p.Z⟩ ⟨q.X - r * q.Z, u * q.Z⟩ = u ^ 2 * b2 p q := by
      simp only [b2]; ring
    refine ⟨c, hc, ?_, ?_, ?_⟩
    · rw [h0, e0, e1, e2]; ring
    · rw [h1, e1, e2]; ring
    · rw [h2, e2]; ring

/-- The x-map of the isogeny with kernel generated by `(x, 0)`, `x ≠ 0` of order two. -/
def f2 (x : K) (p : Pt K) : Pt K := ⟨p.X * (p.X * x - p.Z), p.Z * (p.X - p.Z * x)⟩

/-- The x-map of the isogeny with kernel generated by a point of order three with x-coordinate `x`. -/
def f3 (x : K) (p : Pt K) : Pt K := ⟨p.X * (p.X * x - p.Z) ^ 2, p.Z * (p.X - p.Z * x) ^ 2⟩

/-- The x-map of the isogeny with kernel generated by a point of order four with x-coordinate `x`. -/
def f4 (x : K) (p : Pt K) : Pt K :=
  ⟨p.X * (p.X * x - p.Z) ^ 2 * (p.X * (x ^ 2 + 1) - 2 * x * p.Z),
    p.Z * (p.X - p.Z * x) ^ 2 * (p.Z * (x ^ 2 + 1) - 2 * x * p.X)⟩

theorem f2_nz {x : K} (hx : x ≠ 0) (hx1 : x ^ 2 ≠ 1) {p : Pt K} (hp : Nz p) : Nz (f2 x p) := by
  by_contra h
  simp only [Nz, not_or, not_not, f2] at h
  obtain ⟨h1, h2⟩ := h
  rcases mul_eq_zero.1 h1 with a | a <;> rcases mul_eq_zero.1 h2 with b | b
  · exact hp.elim (fun h => h a) (fun h => h b)
  · rw [a, zero_sub, neg_eq_zero] at b
    exact hp.elim (fun h => h a) (fun h => h ((mul_eq_zero.1 b).resolve_right hx))
  · rw [b, sub_zero] at a
    exact hp.elim (fun h => h ((mul_eq_zero.1 a).resolve_right hx)) (fun h => h b)
  · have hz : p.Z * (x ^ 2 - 1) = 0 := by linear_combination a - x * b
    have hz := (mul_eq_zero.1 hz).resolve_right (sub_ne_zero.2 hx1)
    rw [hz, zero_mul, sub_zero] at b
    exact hp.elim (fun h => h b) (fun h => h hz)

theorem f3_nz {x : K} (hx : x ≠ 0) (hx1 : x ^ 2 ≠ 1) {p : Pt K} (hp : Nz p) : Nz (f3 x p) := by
  have h := f2_nz hx hx1 hp
  simp only [Nz, f2, f3, ne_eq, mul_eq_zero, pow_eq_zero_iff, OfNat.ofNat_ne_zero, not_false_eq_true]
    at h ⊢
  exact h

/-- The 2-isogeny formula. -/
theorem XHom.two {A x : K} (hx : x ≠ 0) (hx1 : x ^ 2 ≠ 1) (hA : x ^ 2 + A * x + 1 = 0) :
    XHom A (2 - 4 * x ^ 2) (f2 x) := by
  have hA' : A = -(x ^ 2 + 1) / x := by field_simp; linear_combination hA
  refine ⟨fun p hp => f2_nz hx hx1 hp, ?_, ?_⟩
  · rintro p q ⟨k, hk, h1, h2⟩
    exact ⟨k ^ 2, pow_ne_zero _ hk, by simp only [f2, h1, h2]; ring, by simp only [f2, h1, h2]; ring⟩
  · rintro p q r s ⟨c, hc, e0, e1, e2⟩
    have i0 : b0 (f2 x p) (f2 x q) =
        x ^ 2 * (b0 p q * (b0 p q * x ^ 2 - b1 A p q * x + b2 p q)) := by
      subst hA'; simp only [b0, b1, b2, f2]; field_simp; ring
    have i1 : b1 (2 - 4 * x ^ 2) (f2 x p) (f2 x q) =
        x ^ 2 * ((b0 p q + b2 p q) * x * b1 A p q - x ^ 2 * (b1 A p q ^ 2 - 2 * b0 p q * b2 p q)
          - 2 * b0 p q * b2 p q) := by
      subst hA'; simp only [b0, b1, b2, f2]; field_simp; ring
    have i2 : b2 (f2 x p) (f2 x q) =
        x ^ 2 * (b2 p q * (b0 p q - b1 A p q * x + b2 p q * x ^ 2)) := by
      subst hA'; simp only [b0, b1, b2, f2]; field_simp; ring
    refine ⟨x ^ 2 * c ^ 2, mul_ne_zero (pow_ne_zero _ hx) (pow_ne_zero _ hc), ?_, ?_, ?_⟩
    · rw [i0, e0, e1, e2]; simp only [f2]; ring
    · rw [i1, e0, e1, e2]; simp only [f2]; ring
    · rw [i2, e0, e1, e2]; simp only [f2]; ring

/-- The 3-isogeny formula. -/
theorem XHom.three {A x : K} (h2 : (2 : K) ≠ 0) (hx : x ≠ 0) (hx1 : x ^ 2 ≠ 1)
    (hA : 3 * x ^ 4 + 4 * A * x ^ 3 + 6 * x ^ 2 - 1 = 0) :
    XHom A ((A * x - 6 * x ^ 2 + 6) * x) (f3 x) := by
  have h4 : (4 : K) ≠ 0 := by
    have : (4 : K) = 2 * 2 := by norm_num
    rw [this]; exact mul_ne_zero h2 h2
  have hA' : A = (1 - 6 * x ^ 2 - 3 * x ^ 4) / (4 * x ^ 3) := by
    field_simp; linear_combination hA
  refine ⟨fun p hp => f3_nz hx hx1 hp, ?_, ?_⟩
  · rintro p q ⟨k, hk, h1, h2⟩
    exact ⟨k ^ 3, pow_ne_zero _ hk, by simp only [f3, h1, h2]; ring, by simp only [f3, h1, h2]; ring⟩
  · rintro p q r s ⟨c, hc, e0, e1, e2⟩
    have i0 : b0 (f3 x p) (f3 x q) =
        x ^ 4 * (b0 p q * (b0 p q * x ^ 2 - b1 A p q * x + b2 p q) ^ 2) := by
      subst hA'; simp only [b0, b1, b2, f3]; field_simp; ring
    have i1 : b1 ((A * x - 6 * x ^ 2 + 6) * x) (f3 x p) (f3 x q) =
        x ^ 4 * (((b0 p q + b2 p q) * x) ^ 2 * b1 A p q - 2 * ((b0 p q + b2 p q) * x) *
          (x ^ 2 * (b1 A p q ^ 2 - 2 * b0 p q * b2 p q) + 2 * b0 p q * b2 p q) +
          x ^ 4 * (b1 A p q ^ 3 - 3 * b0 p q * b2 p q * b1 A p q) +
          2 * x ^ 2 * b0 p q * b2 p q * b1 A p q + b0 p q * b2 p q * b1 A p q) := by
      subst hA'; simp only [b0, b1, b2, f3]; field_simp; ring
    have i2 : b2 (f3 x p) (f3 x q) =
        x ^ 4 * (b2 p q * (b0 p q - b1 A p q * x + b2 p q * x ^ 2) ^ 2) := by
      subst hA'; simp only [b0, b1, b2, f3]; field_simp; ring
    refine ⟨x ^ 4 * c ^ 3, mul_ne_zero (pow_ne_zero _ hx) (pow_ne_zero _ hc), ?_, ?_, ?_⟩
    · rw [i0, e0, e1, e2]; simp only [f3]; ring
    · rw [i1, e0, e1, e2]; simp only [f3]; ring
    · rw [i2, e0, e1, e2]; simp only [f3]; ring

/-- The 4-isogeny formula: two 2-isogenies and a sign. -/
theorem XHom.four {A x : K} (h2 : (2 : K) ≠ 0) (hx : x ≠ 0) (hx1 : x ^ 2 ≠ 1) (hxi : x ^ 2 ≠ -1)
    (hA : x ^ 4 + 6 * x ^ 2 + 1 + 2 * A * x * (x ^ 2 + 1) = 0) :
    XHom A (4 * x ^ 4 - 2) (f4 x) := by
  have he : x ^ 2 + 1 ≠ 0 := fun h => hxi (by linear_combination h)
  have hx2 : (x ^ 2 + 1) / (2 * x) ≠ 0 := div_ne_zero he (mul_ne_zero h2 hx)
  have h11 : ((x ^ 2 + 1) / (2 * x)) ^ 2 ≠ 1 := by
    intro h
    field_simp at h
    have : (x ^ 2 - 1) ^ 2 = 0 := by linear_combination h
    exact hx1 (sub_eq_zero.1 (pow_eq_zero_iff (two_ne_zero) |>.1 this))
  have hfst := XHom.two (A := A) hx2 h11 (by field_simp; linear_combination hA)
  have h11' : (x ^ 2) ^ 2 ≠ 1 := by
    intro h
    have : (x ^ 2 - 1) * (x ^ 2 + 1) = 0 := by linear_combination h
    exact (mul_ne_zero (sub_ne_zero.2 hx1) he) this
  have hsnd := XHom.two (A := 2 - 4 * ((x ^ 2 + 1) / (2 * x)) ^ 2) (x := x ^ 2) (pow_ne_zero _ hx) h11'
    (by field_simp; ring)
  have hneg := XHom.neg (K := K) (2 - 4 * (x ^ 2) ^ 2)
  have : -(2 - 4 * (x ^ 2) ^ 2) = 4 * x ^ 4 - 2 := by ring
  rw [this] at hneg
  refine (hneg.comp (hsnd.comp hfst)).of_peq (-(2 * x) ^ 2 / (x ^ 2 + 1)) ?_ ?_
  · exact div_ne_zero (neg_ne_zero.2 (pow_ne_zero _ (mul_ne_zero h2 hx))) he
  · intro p
    simp only [f2, f4]
    constructor <;> field_simp <;> ring

/-! ### Consequences over an algebraically closed field -/

section closed

variable [DecidableEq K] [IsAlgClosed K]

/-- Over an algebraically closed field every pair other than `(0 : 0)` is an x-coordinate. -/
theorem exists_rep {A : K} (h2 : (2 : K) ≠ 0) (hA : A ^ 2 ≠ 4) {p : Pt K} (hp : Nz p) :
    ∃ P : (W A).Point, Rep p P := by
  by_cases hz : p.Z = 0
  · exact ⟨0, (rep_zero_iff p).2 ⟨hz, hp.resolve_right (not_not.2 hz)⟩⟩
  · obtain ⟨y, hy⟩ := IsAlgClosed.exists_pow_nat_eq
      ((p.X / p.Z) ^ 3 + A * (p.X / p.Z) ^ 2 + (p.X / p.Z)) (n := 2) (by norm_num)
    exact ⟨.some _ y (W_nonsingular h2 hA hy), (rep_some_iff _ p).2 ⟨hz, by field_simp⟩⟩

variable {A A' : K} {f : Pt K → Pt K}

/-- The point at infinity is sent to infinity. -/
theorem XHom.infty (hf : XHom A A' f) (h2 : (2 : K) ≠ 0) : (f ⟨1, 0⟩).Z = 0 := by
  have h : AS A (xr (0 : (W A).Point)) (xr (0 : (W A).Point)) (xr (0 : (W A).Point))
      (xr (0 : (W A).Point)) := by
    simpa using as_points (A := A) h2 0 0
  obtain ⟨c, hc, _, _, e2⟩ := hf.as _ _ _ _ h
  simp only [b2, xr_zero] at e2
  have : c * ((f ⟨1, 0⟩).Z * (f ⟨1, 0⟩).Z) = 0 := by rw [← e2]; ring
  have := (mul_eq_zero.1 this).resolve_left hc
  exact mul_self_eq_zero.1 this

theorem XHom.rep_zero (hf : XHom A A' f) (h2 : (2 : K) ≠ 0) {p : Pt K} (hp : Rep p (0 : (W A).Point)) :
    Rep (f p) (0 : (W A').Point) := by
  have h : Rep (f ⟨1, 0⟩) (0 : (W A').Point) := by
    have hn := hf.nz ⟨1, 0⟩ (Or.inl one_ne_zero)
    have hz := hf.infty h2
    exact (rep_zero_iff _).2 ⟨hz, hn.resolve_right (not_not.2 hz)⟩
  exact h.peq (hf.congr _ _ hp)

/-- Sums and differences of images. -/
theorem XHom.add_sub (hf : XHom A A' f) (h2 : (2 : K) ≠ 0) {P Q : (W A).Point} {P' Q' : (W A').Point}
    {p q r s : Pt K} (hp : Rep p P) (hq : Rep q Q) (hr : Rep r (P + Q)) (hs : Rep s (P - Q))
    (hp' : Rep (f p) P') (hq' : Rep (f q) Q') :
    (Rep (f r) (P' + Q') ∧ Rep (f s) (P' - Q')) ∨ (Rep (f r) (P' - Q') ∧ Rep (f s) (P' + Q')) :=
  hp'.of_as h2 hq' (hf.as _ _ _ _ (hp.as h2 hq hr hs))

/-- `f` commutes with multiplication by integers. -/
theorem XHom.nsmul (hf : XHom A A' f) (h2 : (2 : K) ≠ 0) {P : (W A).Point} {P' : (W A').Point}
    {p : Pt K} (hp : Rep p P) (hp' : Rep (f p) P') (n : ℕ) :
    ∀ {q : Pt K}, Rep q (n • P) → Rep (f q) (n • P') := by
  suffices h : (∀ {q : Pt K}, Rep q (n • P) → Rep (f q) (n • P')) ∧
      (∀ {q : Pt K}, Rep q ((n + 1) • P) → Rep (f q) ((n + 1) • P')) from fun _ hq => h.1 hq
  induction n with
  | zero =>
    refine ⟨fun hq => by rw [zero_smul] at hq ⊢; exact hf.rep_zero h2 hq, fun hq => ?_⟩
    rw [zero_add, one_smul] at hq ⊢
    exact hp'.peq (hf.congr _ _ (hp.unique hq))
  | succ n ih =>
    refine ⟨ih.2, fun {q} hq => ?_⟩
    have hr : Rep q ((n + 1) • P + P) := by rw [← succ_nsmul]; exact hq
    have hs : Rep (xr (n • P)) ((n + 1) • P - P) := by
      have : (n + 1) • P - P = n • P := by rw [succ_nsmul, add_sub_cancel_right]
      rw [this]; exact rep_xr _
    have has := hf.as _ _ _ _ ((rep_xr ((n + 1) • P)).as h2 hp hr hs)
    have hs' : Rep (f (xr (n • P))) ((n + 1) • P' - P') := by
      have : (n + 1) • P' - P' = n • P' := by rw [succ_nsmul, add_sub_cancel_right]
      rw [this]; exact ih.1 (rep_xr _)
    have := (ih.2 (rep_xr _)).of_as_right h2 hp' hs' has
    rwa [← succ_nsmul] at this

/-- The points sent to infinity. -/
def XHom.ker (hf : XHom A A' f) (h2 : (2 : K) ≠ 0) : AddSubgroup (W A).Point where
  carrier := {P | (f (xr P)).Z = 0}
  zero_mem' := hf.infty h2
  neg_mem' := fun {P} h => by
    show (f (xr (-P))).Z = 0
    rw [xr_neg]; exact h
  add_mem' := fun {P Q} hP hQ => by
    have rz : ∀ {R : (W A).Point}, (f (xr R)).Z = 0 → Rep (f (xr R)) (0 : (W A').Point) := fun {R} h =>
      (rep_zero_iff _).2 ⟨h, (hf.nz _ (xr_nz R)).resolve_right (not_not.2 h)⟩
    have := hf.add_sub h2 (rep_xr P) (rep_xr Q) (rep_xr (P + Q)) (rep_xr (P - Q)) (rz hP) (rz hQ)
    rw [add_zero, sub_zero, or_self] at this
    exact this.1.Z_iff.2 rfl

theorem XHom.mem_ker (hf : XHom A A' f) (h2 : (2 : K) ≠ 0) {P : (W A).Point} {P' : (W A').Point}
    {p : Pt K} (hp : Rep p P) (hp' : Rep (f p) P') : P ∈ hf.ker h2 ↔ P' = 0 := by
  show (f (xr P)).Z = 0 ↔ _
  rw [← hp'.Z_iff]
  exact (hf.congr _ _ hp).symm.Z_iff

/-- Two points have the same image iff their sum or difference is in the kernel. -/
theorem XHom.fibre (hf : XHom A A' f) (h2 : (2 : K) ≠ 0) (hA' : A' ^ 2 ≠ 4) (P Q : (W A).Point) :
    PEq (f (xr P)) (f (xr Q)) ↔ P + Q ∈ hf.ker h2 ∨ P - Q ∈ hf.ker h2 := by
  obtain ⟨P', hP'⟩ := exists_rep h2 hA' (hf.nz _ (xr_nz P))
  obtain ⟨Q', hQ'⟩ := exists_rep h2 hA' (hf.nz _ (xr_nz Q))
  have as := hf.add_sub h2 (rep_xr P) (rep_xr Q) (rep_xr (P + Q)) (rep_xr (P - Q)) hP' hQ'
  have hPQ : PEq (f (xr P)) (f (xr Q)) ↔ P' = Q' ∨ P' = -Q' := by
    constructor
    · intro h; exact (hP'.peq h).eq_or_neg hQ'
    · rintro (h | h)
      · subst h; exact hP'.unique hQ'
      · subst h; have := hP'.neg; rw [neg_neg] at this; exact this.unique hQ'
  rw [hPQ]
  rcases as with ⟨a, b⟩ | ⟨a, b⟩
  · rw [hf.mem_ker h2 (rep_xr _) a, hf.mem_ker h2 (rep_xr _) b, add_eq_zero_iff_eq_neg, sub_eq_zero,
      or_comm]
  · rw [hf.mem_ker h2 (rep_xr _) a, hf.mem_ker h2 (rep_xr _) b, add_eq_zero_iff_eq_neg, sub_eq_zero]

end closed

end Secuer.Mont
