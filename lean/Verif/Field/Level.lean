import Verif.Field.Chain
import Verif.Curve.ChainSpec

/-!
# The four parameter sets

Puts the field, the square root, the addition chains and the tables together to an environment for the
curve-level model, for each parameter set.
-/

namespace Secuer.Field

open Secuer.Curve Secuer.Mont

/-- `POIK_BITS` (`poik.h:19-45`) -/
inductive Level where
  | l434 | l503 | l610 | l751
deriving DecidableEq, Repr

namespace Level

/-- tables and exponents (`P434.c` …) -/
def iso : Level → IsoParams
  | l434 => iso434
  | l503 => iso503
  | l610 => iso610
  | l751 => iso751

/-- the characteristic -/
def p : Level → ℕ
  | l434 => p434
  | l503 => p503
  | l610 => p610
  | l751 => p751

/-- the chain compiled for the level, with the size of its table -/
def chain : Level → ℕ × List Instr
  | l434 => (31, chain434)
  | l503 => (15, chain503)
  | l610 => (31, chain610)
  | l751 => (27, chain751)

theorem shipped (l : Level) : l.iso.Shipped := by
  cases l
  · exact Or.inl rfl
  · exact Or.inr (Or.inl rfl)
  · exact Or.inr (Or.inr (Or.inl rfl))
  · exact Or.inr (Or.inr (Or.inr rfl))

theorem exponents (l : Level) : Secuer.Util.Spec.Exponents l.iso.e2 l.iso.e3 := by
  cases l
  · exact Or.inl rfl
  · exact Or.inr (Or.inl rfl)
  · exact Or.inr (Or.inr (Or.inl rfl))
  · exact Or.inr (Or.inr (Or.inr rfl))

theorem p_succ (l : Level) : l.p + 1 = 2 ^ l.iso.e2 * 3 ^ l.iso.e3 := by
  cases l <;> decide +kernel

instance (l : Level) : Prime3 l.p where
  prime := by
    cases l
    · exact prime434
    · exact prime503
    · exact prime610
    · exact prime751
  mod4 := by cases l <;> decide +kernel

theorem eight (l : Level) : 8 ∣ l.p + 1 := by cases l <;> decide +kernel
theorem three (l : Level) : 3 ∣ l.p + 1 := by cases l <;> decide +kernel
theorem p_big (l : Level) : 1000 < l.p := by cases l <;> decide +kernel

theorem chain_exp (l : Level) : chainExp l.chain.1 l.chain.2 = some ((l.p - 3) / 4) := by
  cases l
  · exact chainExp434
  · exact chainExp503
  · exact chainExp610
  · exact chainExp751

/-- `fpinv_chain_mont` on field elements; by `chainF_eq` the default value is never used. -/
def chainF (l : Level) (v : ZMod l.p) : ZMod l.p :=
  (runChain (fun x => x * x) (fun x y => x * y) v l.chain.1 l.chain.2).getD 0

theorem chainF_eq (l : Level) (v : ZMod l.p) : l.chainF v = v ^ ((l.p - 3) / 4) := by
  unfold chainF
  rw [runChain_pow v l.chain_exp]; rfl

/-- The field `GF(p²)` of the level. -/
abbrev F (l : Level) : Type := Fp2 l.p

/-- What the curve-level model gets from the lower layers. -/
def env (l : Level) : Env l.F where
  toIsoParams := l.iso
  sqrt := sqrtF l.iso.e2 l.iso.e3 l.chainF
  re x := x.re.val
  im x := x.im.val

theorem sqrtOK (l : Level) : SqrtOK l.env := by
  intro x hx
  refine sqrtF_ok l.p_succ ?_ l.chainF_eq x hx
  cases l <;> decide

theorem two (l : Level) : (2 : l.F) ≠ 0 := fp2_two_ne_zero

theorem cast_ne (l : Level) (n : ℕ) (h0 : 0 < n) (h : n < l.p) : (n : l.F) ≠ 0 := by
  intro e
  have := congrArg QuadraticAlgebra.re e
  simp only [QuadraticAlgebra.re_natCast, QuadraticAlgebra.re_zero] at this
  rw [ZMod.natCast_eq_zero_iff] at this
  have := Nat.le_of_dvd h0 this
  omega

theorem three_ne (l : Level) : (3 : l.F) ≠ 0 := by
  have := l.cast_ne 3 (by norm_num) (by have := l.p_big; omega)
  exact_mod_cast this

/-- `proves_order` (`poik.c:763-773`) on the counters of `Check_Curve`, which are `size_t`. -/
def po (l : Level) : ProvesOrder := fun a b =>
  Secuer.Util.provesOrder (.ofNat l.iso.e2) (.ofNat l.iso.e3) (.ofNat a) (.ofNat b)

theorem e2_le (l : Level) : l.iso.e2 ≤ 372 := by cases l <;> decide
theorem e3_le (l : Level) : l.iso.e3 ≤ 239 := by cases l <;> decide

theorem orderTest (l : Level) : OrderTest l.env l.po where
  sound a b ha hb h := by
    have h2 := l.e2_le
    have h3 := l.e3_le
    change a ≤ 2 * l.iso.e2 at ha
    change b ≤ 2 * l.iso.e3 at hb
    exact Secuer.Util.C26_proves_order_sound l.exponents (by omega) (by omega) h
  small a b ha hb := by
    have h2 := l.e2_le
    have h3 := l.e3_le
    change a ≤ l.iso.e2 at ha
    change b ≤ l.iso.e3 + 1 at hb
    rw [← Bool.not_eq_true]
    intro h
    have := (Secuer.Util.provesOrder_iff l.exponents (show a < 2 ^ 32 by omega) (show b < 2 ^ 32 by omega)).1 h
    omega

/-- An algebraic closure of the field of the level. -/
abbrev K (l : Level) : Type := AlgebraicClosure l.F

noncomputable instance (l : Level) : DecidableEq l.K := Classical.decEq _

/-- The inclusion of `GF(p²)` in its closure. -/
noncomputable abbrev φ (l : Level) : l.F →+* l.K := algebraMap l.F l.K
/-- The `p²`-power map. -/
noncomputable abbrev σ (l : Level) : l.K →+* l.K := frobK l.F l.K

theorem setting (l : Level) : Setting l.φ l.σ l.p l.env where
  frob := frobData l.eight
  two := l.two
  neg := fp2_neg_one
  sqrt := l.sqrtOK
  good := l.shipped.good
  order := l.p_succ

end Level

/-! ### The default starting curve -/

section

variable {p : ℕ} [hp : Prime3 p]

theorem star_fixed {z : Fp2 p} (h : star z = z) : ∃ a : ZMod p, algebraMap _ (Fp2 p) a = z := by
  refine ⟨z.re, ?_⟩
  have h2 := congrArg QuadraticAlgebra.im h
  simp only [QuadraticAlgebra.im_star] at h2
  have h0 : z.im = 0 := by
    have : 2 * z.im = 0 := by linear_combination -h2
    exact (mul_eq_zero.1 this).resolve_left two_ne_zero'
  ext
  · simp
  · simp [h0]

open Classical in
/-- `y² = x³ + x` has `p + 1` points over `GF(p)`. -/
theorem card_base : Nat.card (W (0 : ZMod p)).Point = p + 1 := by
  have h4 : (0 : ZMod p) ^ 2 ≠ 4 := by
    intro h
    have : (2 : ZMod p) * 2 = 0 := by linear_combination -h
    rcases mul_eq_zero.1 this with h | h <;> exact two_ne_zero' h
  rw [Manin.card_points two_ne_zero' h4]
  have hchar : ringChar (ZMod p) ≠ 2 := by
    intro h
    rw [ZMod.ringChar_zmod_n] at h
    have := hp.mod4
    omega
  have hn : ∀ a : ZMod p, (Manin.cnt 0 a : ℤ) = quadraticChar (ZMod p) (a ^ 3 + a) + 1 := by
    intro a
    rw [← quadraticChar_card_sqrts hchar]
    unfold Manin.cnt
    rw [Manin.rhs_eval, show a ^ 3 + 0 * a ^ 2 + a = a ^ 3 + a by ring, Set.toFinset_card, ← Nat.card_eq_fintype_card]
    rfl
  have hodd : ∀ a : ZMod p, quadraticChar (ZMod p) ((-a) ^ 3 + -a) = -quadraticChar (ZMod p) (a ^ 3 + a) := by
    intro a
    rw [show (-a) ^ 3 + -a = -1 * (a ^ 3 + a) by ring, map_mul, quadraticChar_neg_one_iff_not_isSquare.2 (neg_one_nonsquare p)]
    ring
  have hsum : ∑ a : ZMod p, quadraticChar (ZMod p) (a ^ 3 + a) = 0 := by
    have h1 : ∑ a : ZMod p, quadraticChar (ZMod p) ((-a) ^ 3 + -a) = ∑ a : ZMod p, quadraticChar (ZMod p) (a ^ 3 + a) :=
      Equiv.sum_comp (Equiv.neg (ZMod p)) (fun a => quadraticChar (ZMod p) (a ^ 3 + a))
    simp only [hodd, Finset.sum_neg_distrib] at h1
    omega
  have : ((∑ a : ZMod p, Manin.cnt 0 a : ℕ) : ℤ) = p := by
    push_cast
    simp only [hn, Finset.sum_add_distrib, hsum, Finset.sum_const, Finset.card_univ, ZMod.card]
    simp
  omega

theorem zero_sq_ne_four : (0 : Fp2 p) ^ 2 ≠ 4 := by
  intro h
  have : (2 : Fp2 p) * 2 = 0 := by linear_combination -h
  rcases mul_eq_zero.1 this with h | h <;> exact fp2_two_ne_zero h

theorem exists_conj : ∃ τ : (W (0 : Fp2 p)).Point →+ (W (0 : Fp2 p)).Point,
    ∀ x y h, ∃ h', τ (.some x y h) = .some (star x) (star y) h' := by
  have := exists_pointMap (starRingEnd (Fp2 p)) 0
  rw [map_zero] at this
  obtain ⟨τ, _, h⟩ := this
  exact ⟨τ, h⟩

/-- Points on which conjugation is `k = ±1`, through a twist by `w`. -/
theorem card_eigen {τ : (W (0 : Fp2 p)).Point →+ (W (0 : Fp2 p)).Point}
    (hτ : ∀ x y h, ∃ h', τ (.some x y h) = .some (star x) (star y) h') (c : ZMod p) (w : Fp2 p) (k : ℤ)
    (hc : c * c = 1) (hw : w * w = algebraMap _ (Fp2 p) c) (hsw : star w = algebraMap _ (Fp2 p) c * w)
    (hk : ∀ x y h, ∃ h', k • (.some x y h : (W (0 : Fp2 p)).Point) = .some x (algebraMap _ (Fp2 p) c * y) h') :
    Nat.card {P : (W (0 : Fp2 p)).Point // τ P = k • P} = p + 1 := by
  rw [← card_base (p := p)]
  symm
  set ι := algebraMap (ZMod p) (Fp2 p) with hι
  have hιi : Function.Injective ι := (algebraMap (ZMod p) (Fp2 p)).injective
  have hstar : ∀ a, star (ι a) = ι a := by
    intro a
    ext <;> simp [hι]
  have hcι : ι c * ι c = 1 := by rw [← map_mul, hc, map_one]
  have hw0 : w ≠ 0 := by
    rintro rfl
    rw [mul_zero] at hw
    rw [← hw, mul_zero] at hcι
    exact zero_ne_one hcι
  have hc0 : ι c ≠ 0 := fun h => by rw [h, mul_zero] at hcι; exact zero_ne_one hcι
  have h4 : (0 : ZMod p) ^ 2 ≠ 4 := by
    intro h
    have : (2 : ZMod p) * 2 = 0 := by linear_combination -h
    rcases mul_eq_zero.1 this with h | h <;> exact two_ne_zero' h
  have hm : ∀ x y, (W (0 : ZMod p)).Nonsingular x y → (W (0 : Fp2 p)).Nonsingular (ι c * ι x) (w * ι y) := by
    intro x y h
    have e := (W_equation _ _ _).1 h.1
    apply W_nonsingular fp2_two_ne_zero zero_sq_ne_four
    have e' := congrArg ι e
    simp only [map_add, map_mul, map_pow, map_zero] at e'
    rw [mul_pow, sq w, hw]
    linear_combination ι c * e' - ι c * ι x ^ 3 * hcι
  have hfix : ∀ x y h, τ (.some (ι c * ι x) (w * ι y) (hm x y h)) = k • (.some (ι c * ι x) (w * ι y) (hm x y h)) := by
    intro x y h
    obtain ⟨h1, e1⟩ := hτ _ _ (hm x y h)
    obtain ⟨h2, e2⟩ := hk _ _ (hm x y h)
    rw [e1, e2]
    simp only [WeierstrassCurve.Affine.Point.some.injEq]
    rw [star_mul', star_mul', hstar, hstar, hstar, hsw]
    exact ⟨rfl, by ring⟩
  let m : (W (0 : ZMod p)).Point → {P : (W (0 : Fp2 p)).Point // τ P = k • P} := fun P => match P with
    | .zero => ⟨0, by rw [map_zero]; exact (zsmul_zero k).symm⟩
    | .some x y h => ⟨.some (ι c * ι x) (w * ι y) (hm x y h), hfix x y h⟩
  refine Nat.card_congr (Equiv.ofBijective m ⟨?_, ?_⟩)
  · rintro (_ | ⟨x, y, h⟩) (_ | ⟨x', y', h'⟩) e
    · rfl
    · have := congrArg Subtype.val e
      cases this
    · have := congrArg Subtype.val e
      cases this
    · have := congrArg Subtype.val e
      simp only [m, WeierstrassCurve.Affine.Point.some.injEq] at this
      obtain ⟨e1, e2⟩ := this
      have := hιi (mul_left_cancel₀ hc0 e1)
      have := hιi (mul_left_cancel₀ hw0 e2)
      subst_vars
      rfl
  · rintro ⟨P, hP⟩
    cases P with
    | zero => exact ⟨.zero, rfl⟩
    | some x y h =>
      obtain ⟨h1, e1⟩ := hτ _ _ h
      obtain ⟨h2, e2⟩ := hk _ _ h
      rw [e1, e2] at hP
      simp only [WeierstrassCurve.Affine.Point.some.injEq] at hP
      obtain ⟨ex, ey⟩ := hP
      obtain ⟨a, ha⟩ := star_fixed ex
      obtain ⟨b, hb⟩ := star_fixed (z := w * y) (by
        rw [star_mul', ey, hsw]
        linear_combination w * y * hcι)
      change ι a = x at ha
      change ι b = w * y at hb
      have hx : ι c * ι (c * a) = x := by rw [map_mul, ha]; linear_combination x * hcι
      have hy : w * ι (c * b) = y := by
        rw [map_mul, hb]; linear_combination ι c * y * hw + y * hcι
      have hns : (W (0 : ZMod p)).Nonsingular (c * a) (c * b) := by
        apply W_nonsingular two_ne_zero' h4
        apply hιi
        have e := (W_equation _ _ _).1 h.1
        simp only [map_add, map_mul, map_pow, map_zero]
        rw [ha, hb]
        linear_combination (ι c) ^ 2 * w ^ 2 * e + (x ^ 3 * ι c ^ 2 + x * ι c ^ 2) * hw + x * ι c * hcι
      refine ⟨.some _ _ hns, ?_⟩
      apply Subtype.ext
      simp only [m, WeierstrassCurve.Affine.Point.some.injEq]
      exact ⟨hx, hy⟩

/-- `y² = x³ + x` has `(p + 1)²` points over `GF(p²)`. -/
theorem card_zero (hp5 : 5 < p) : Nat.card (W (0 : Fp2 p)).Point = (p + 1) ^ 2 := by
  obtain ⟨τ, hτ⟩ := exists_conj (p := p)
  haveI := Manin.finite_points (0 : Fp2 p)
  have hplus : Nat.card {P : (W (0 : Fp2 p)).Point // τ P = (1 : ℤ) • P} = p + 1 :=
    card_eigen hτ 1 1 1 (by ring) (by simp) (by simp) (fun x y h => by
      simp only [map_one, one_mul, one_smul]; exact ⟨h, trivial⟩)
  have hminus : Nat.card {P : (W (0 : Fp2 p)).Point // τ P = (-1 : ℤ) • P} = p + 1 :=
    card_eigen hτ (-1) ⟨0, 1⟩ (-1) (by ring) (by ext <;> simp [QuadraticAlgebra.re_one, QuadraticAlgebra.im_one])
      (by ext <;> simp) (fun x y h => by
        simp only [map_neg, map_one, neg_smul, one_smul, neg_one_mul]
        rw [WeierstrassCurve.Affine.Point.neg_some]
        simp only [W_negY, WeierstrassCurve.Affine.Point.some.injEq, true_and]
        exact ⟨W_nonsingular fp2_two_ne_zero zero_sq_ne_four (by rw [neg_sq]; exact (W_equation _ _ _).1 h.1), trivial⟩)
  have hinv : ∀ P, τ (τ P) = P := by
    rintro (_ | ⟨x, y, h⟩)
    · change τ (τ 0) = 0
      rw [map_zero, map_zero]
    · obtain ⟨h1, e1⟩ := hτ x y h
      obtain ⟨h2, e2⟩ := hτ _ _ h1
      rw [e1, e2]
      simp only [star_star]
  let f : (W (0 : Fp2 p)).Point →+ (W (0 : Fp2 p)).Point := AddMonoidHom.id _ + τ
  have hker : Nat.card f.ker = p + 1 := by
    rw [← hminus]
    refine Nat.card_congr (Equiv.subtypeEquivRight fun P => ?_)
    rw [AddMonoidHom.mem_ker]
    change P + τ P = 0 ↔ _
    rw [neg_one_smul, eq_neg_iff_add_eq_zero, add_comm]
  have hrange : Nat.card f.range ∣ p + 1 := by
    let g : (W (0 : Fp2 p)).Point →+ (W (0 : Fp2 p)).Point := τ - AddMonoidHom.id _
    have hgk : Nat.card g.ker = p + 1 := by
      rw [← hplus]
      refine Nat.card_congr (Equiv.subtypeEquivRight fun P => ?_)
      rw [AddMonoidHom.mem_ker, one_smul]
      change τ P - P = 0 ↔ _
      rw [sub_eq_zero]
    rw [← hgk]
    apply AddSubgroup.card_dvd_of_le
    rintro _ ⟨P, rfl⟩
    rw [AddMonoidHom.mem_ker]
    change τ (P + τ P) - (P + τ P) = 0
    rw [map_add, hinv, add_comm, sub_self]
  have hcard : Nat.card (W (0 : Fp2 p)).Point = Nat.card f.ker * Nat.card f.range := by
    rw [← AddSubgroup.card_mul_index f.ker, AddSubgroup.index_ker]
  obtain ⟨hlo, _⟩ := Manin.hasse fp2_two_ne_zero zero_sq_ne_four (card_fp2 (p := p))
  rw [hcard, hker] at hlo ⊢
  obtain ⟨d, hd⟩ := hrange
  obtain ⟨q, rfl⟩ : ∃ q, p = q + 6 := ⟨p - 6, by omega⟩
  have hd1 : d = 1 := by
    rcases Nat.lt_or_ge d 2 with h | h
    · interval_cases d
      · omega
      · rfl
    · exfalso
      have : 2 * Nat.card f.range ≤ q + 6 + 1 := by rw [hd, mul_comm]; exact Nat.mul_le_mul_left _ h
      rw [show q + 6 - 1 = q + 5 by omega] at hlo
      nlinarith
  rw [hd1, mul_one] at hd
  rw [← hd]; ring

end

end Secuer.Field
