import Verif.Word.Redc
import Verif.Field.Fp2
import Mathlib.Data.ZMod.Basic
import Mathlib.Algebra.Field.ZMod

/-!
# The prime field on words
-/

namespace Secuer.Word

theorem add0 {n : ℕ} {a b : List Digit} (ha : a.length = n) (hb : b.length = n) :
    (addLoop 0 a b).2.length = n ∧ val (addLoop 0 a b).2 = (val a + val b) % 2 ^ (64 * n) := by
  obtain ⟨h1, h2, h3⟩ := addLoop_spec bit_zero (ha.trans hb.symm)
  rw [ha] at h1 h3
  refine ⟨h1, ?_⟩
  have h4 := val_lt (addLoop 0 a b).2
  rw [h1] at h4
  rw [u0, Nat.add_zero] at h3
  rw [← h3, Nat.add_mul_mod_self_left, Nat.mod_eq_of_lt h4]

theorem add0_exact {n : ℕ} {a b : List Digit} (ha : a.length = n) (hb : b.length = n) (h : val a + val b < 2 ^ (64 * n)) :
    (addLoop 0 a b).2.length = n ∧ val (addLoop 0 a b).2 = val a + val b := by
  obtain ⟨h1, h2⟩ := add0 ha hb
  exact ⟨h1, by rw [h2, Nat.mod_eq_of_lt h]⟩

theorem sub0 {n : ℕ} {a b : List Digit} (ha : a.length = n) (hb : b.length = n) :
    (subLoop 0 a b).2.length = n ∧ Bit (subLoop 0 a b).1 ∧
      ((val b ≤ val a ∧ (subLoop 0 a b).1.toNat = 0 ∧ val (subLoop 0 a b).2 = val a - val b) ∨
        (val a < val b ∧ (subLoop 0 a b).1.toNat = 1 ∧ val (subLoop 0 a b).2 = val a + 2 ^ (64 * n) - val b)) := by
  obtain ⟨h1, h2, h3⟩ := subLoop_spec bit_zero (ha.trans hb.symm)
  rw [ha] at h1 h3
  refine ⟨h1, h2, ?_⟩
  have h4 := val_lt (subLoop 0 a b).2
  have h5 := val_lt a
  have h6 := val_lt b
  rw [h1] at h4
  rw [ha] at h5
  rw [hb] at h6
  rw [u0, Nat.add_zero] at h3
  have h7 : (subLoop 0 a b).1.toNat = 0 ∨ (subLoop 0 a b).1.toNat = 1 := by
    have : (subLoop 0 a b).1.toNat ≤ 1 := h2
    omega
  rcases h7 with h7 | h7
  · left
    rw [h7] at h3
    omega
  · right
    rw [h7] at h3
    omega

variable {T : Tables} {p : ℕ}

/-- `mp_sub434_p2` …: `a - b + 2p` -/
theorem subP2_val (g : Good T p) {a b : List Digit} (ha : a.length = T.n) (hb : b.length = T.n)
    (h1 : val b ≤ val a + 2 * p) (h2 : val a + 2 * p - val b < 2 ^ (64 * T.n)) :
    (subP2C T a b).length = T.n ∧ val (subP2C T a b) = val a + 2 * p - val b := by
  obtain ⟨l, _, h⟩ := sub0 ha hb
  obtain ⟨l', h'⟩ := add0 l g.len_x2
  refine ⟨l', ?_⟩
  rw [subP2C, h', g.val_x2]
  rcases h with ⟨h3, _, h4⟩ | ⟨h3, _, h4⟩
  · rw [h4, Nat.mod_eq_of_lt (by omega)]; omega
  · have := val_lt b
    rw [hb] at this
    rw [h4, show val a + 2 ^ (64 * T.n) - val b + 2 * p = (val a + 2 * p - val b) + 2 ^ (64 * T.n) by omega,
      Nat.add_mod_right, Nat.mod_eq_of_lt h2]

/-- `mp_sub434_p4` …: `a - b + 4p` -/
theorem subP4_val (g : Good T p) {a b : List Digit} (ha : a.length = T.n) (hb : b.length = T.n)
    (h1 : val b ≤ val a + 4 * p) (h2 : val a + 4 * p - val b < 2 ^ (64 * T.n)) :
    (subP4 T a b).length = T.n ∧ val (subP4 T a b) = val a + 4 * p - val b := by
  obtain ⟨l, _, h⟩ := sub0 ha hb
  obtain ⟨l', h'⟩ := add0 l g.len_x4
  refine ⟨l', ?_⟩
  rw [subP4, h', g.val_x4]
  rcases h with ⟨h3, _, h4⟩ | ⟨h3, _, h4⟩
  · rw [h4, Nat.mod_eq_of_lt (by omega)]; omega
  · have := val_lt b
    rw [hb] at this
    rw [h4, show val a + 2 ^ (64 * T.n) - val b + 4 * p = (val a + 4 * p - val b) + 2 ^ (64 * T.n) by omega,
      Nat.add_mod_right, Nat.mod_eq_of_lt h2]

/-- Adding a masked constant after a subtraction: undoes a borrow -/
theorem fixup {n : ℕ} {a b x : List Digit} (ha : a.length = n) (hb : b.length = n) (hx : x.length = n)
    (h1 : val b ≤ val a + val x) (h2 : val x < 2 ^ (64 * n)) :
    (addLoop 0 (subLoop 0 a b).2 (masked (maskOf (subLoop 0 a b).1) x)).2.length = n ∧
      val (addLoop 0 (subLoop 0 a b).2 (masked (maskOf (subLoop 0 a b).1) x)).2 =
        if val b ≤ val a then val a - val b else val a + val x - val b := by
  obtain ⟨l, hb1, h⟩ := sub0 ha hb
  obtain ⟨l', h'⟩ := add0 l ((masked_length _ _).trans hx)
  refine ⟨l', ?_⟩
  rw [h', val_masked hb1]
  have hl := val_lt a
  have hl2 := val_lt b
  rw [ha] at hl
  rw [hb] at hl2
  rcases h with ⟨h3, h5, h4⟩ | ⟨h3, h5, h4⟩
  · rw [h4, h5, if_pos h3, Nat.zero_mul, Nat.add_zero, Nat.mod_eq_of_lt (by omega)]
  · rw [h4, h5, if_neg (by omega), Nat.one_mul,
      show val a + 2 ^ (64 * n) - val b + val x = (val a + val x - val b) + 2 ^ (64 * n) by omega,
      Nat.add_mod_right, Nat.mod_eq_of_lt (by omega)]

theorem fpadd_val (g : Good T p) {a b : List Digit} (ha : a.length = T.n) (hb : b.length = T.n)
    (h : val a + val b < 2 ^ (64 * T.n)) :
    (fpaddC T a b).length = T.n ∧
      val (fpaddC T a b) = if 2 * p ≤ val a + val b then val a + val b - 2 * p else val a + val b := by
  obtain ⟨l, hv⟩ := add0_exact ha hb h
  have := g.room
  obtain ⟨l', hv'⟩ := fixup l g.len_x2 g.len_x2 (Nat.le_add_left _ _) (by rw [g.val_x2]; omega)
  refine ⟨l', ?_⟩
  rw [fpaddC]
  rw [hv', hv, g.val_x2, Nat.add_sub_cancel]

theorem fpsub_val (g : Good T p) {a b : List Digit} (ha : a.length = T.n) (hb : b.length = T.n)
    (h : val b ≤ val a + 2 * p) :
    (fpsubC T a b).length = T.n ∧
      val (fpsubC T a b) = if val b ≤ val a then val a - val b else val a + 2 * p - val b := by
  have := g.room
  obtain ⟨l', hv'⟩ := fixup ha hb g.len_x2 (by rw [g.val_x2]; exact h) (by rw [g.val_x2]; omega)
  refine ⟨l', ?_⟩
  rw [fpsubC]
  rw [hv', g.val_x2]

theorem fpneg_val (g : Good T p) {a : List Digit} (ha : a.length = T.n) (h : val a ≤ 2 * p) :
    (fpneg T a).length = T.n ∧ val (fpneg T a) = 2 * p - val a := by
  obtain ⟨l, _, hv⟩ := sub0 g.len_x2 ha
  refine ⟨l, ?_⟩
  rw [g.val_x2] at hv
  rcases hv with ⟨_, _, h3⟩ | ⟨h1, _, _⟩
  · exact h3
  · omega

theorem fpcorrection_val (g : Good T p) {a : List Digit} (ha : a.length = T.n) :
    (fpcorrection T a).length = T.n ∧ val (fpcorrection T a) = if p ≤ val a then val a - p else val a := by
  have := g.room
  obtain ⟨l', hv'⟩ := fixup ha g.len_p g.len_p (Nat.le_add_left _ _) (by rw [g.val_p]; omega)
  refine ⟨l', ?_⟩
  rw [fpcorrection]
  rw [hv', g.val_p, Nat.add_sub_cancel]

theorem headD_mod (a : List Digit) : (a.headD 0).toNat % 2 = val a % 2 := by
  cases a with
  | nil => rfl
  | cons x xs => show x.toNat % 2 = _; rw [val]; omega

theorem fpdiv2_val (g : Good T p) {a : List Digit} (ha : a.length = T.n) (h : val a + p < 2 ^ (64 * T.n)) :
    (fpdiv2 T a).length = T.n ∧ val (fpdiv2 T a) = if val a % 2 = 1 then (val a + p) / 2 else val a / 2 := by
  have e : (a.headD 0 &&& 1 : Digit) = (if val a % 2 = 1 then 1 else 0) := by
    apply BitVec.eq_of_toNat_eq
    rw [BitVec.toNat_and]
    have : (1 : Digit).toNat = 2 ^ 1 - 1 := rfl
    rw [this, Nat.and_two_pow_sub_one_eq_mod, pow_one, headD_mod]
    by_cases h1 : val a % 2 = 1
    · rw [if_pos h1, h1]; rfl
    · rw [if_neg h1]; show _ = 0; omega
  rw [fpdiv2]
  rw [e, shiftr1_length, val_shiftr1]
  by_cases h1 : val a % 2 = 1
  · rw [if_pos h1, if_pos h1]
    have em : (0 - 1 : Digit) = maskOf 1 := rfl
    rw [em]
    obtain ⟨l, hv⟩ := add0_exact (b := masked (maskOf 1) T.p) ha ((masked_length _ _).trans g.len_p)
      (by rw [val_masked (c := 1) (le_refl 1), g.val_p, u1, Nat.one_mul]; exact h)
    refine ⟨l, ?_⟩
    rw [hv, val_masked (c := 1) (le_refl 1), g.val_p, u1, Nat.one_mul]
  · rw [if_neg h1, if_neg h1]
    have em : (0 - 0 : Digit) = maskOf 0 := rfl
    rw [em]
    obtain ⟨l, hv⟩ := add0_exact (b := masked (maskOf 0) T.p) ha ((masked_length _ _).trans g.len_p)
      (by rw [val_masked bit_zero, u0, Nat.zero_mul]; omega)
    refine ⟨l, ?_⟩
    rw [hv, val_masked bit_zero, u0, Nat.zero_mul, Nat.add_zero]

/-- `fpmul_mont`: the exact result -/
theorem fpmul_exact (g : Good T p) {a b : List Digit} (ha : a.length = T.n) (hb : b.length = T.n)
    (h : val a * val b < 2 ^ (64 * T.n) * p) :
    ∃ c q, fpmul? T a b = some c ∧ fpmulC T a b = c ∧ c.length = T.n ∧ q < 2 ^ (64 * T.n) ∧
      val c * 2 ^ (64 * T.n) = val a * val b + q * p := by
  obtain ⟨m, e1, l1, v1⟩ := mpMul_spec g.n_pos (by have := g.n_lt; omega) ha hb
  obtain ⟨c, q, e2, l2, hq, v2⟩ := rdcMont_exact g l1 (by rw [v1]; exact h)
  have e : fpmul? T a b = some c := by
    rw [fpmul?, e1]; exact e2
  refine ⟨c, q, e, by rw [fpmulC, e]; rfl, l2, hq, by rw [v2, v1]⟩

theorem lt_two_of_exact {R c m q p : ℕ} (hq : q < R) (hm : m < R * p) (h : c * R = m + q * p) : c < 2 * p := by
  have h1 : q * p ≤ R * p := Nat.mul_le_mul_right _ hq.le
  have h2 : c * R < 2 * p * R := by
    have : 2 * p * R = R * p + R * p := by ring
    omega
  exact Nat.lt_of_mul_lt_mul_right h2

/-! ## Values in the field -/

/-- Array of the right length below a bound -/
structure Rng (T : Tables) (b : ℕ) (x : List Digit) : Prop where
  len : x.length = T.n
  lt : val x < b

theorem Rng.mono {b b' : ℕ} {x : List Digit} (h : Rng T b x) (hb : b ≤ b') : Rng T b' x := ⟨h.len, lt_of_lt_of_le h.lt hb⟩

/-- The field element an array of digits stands for: the number divided by `R = 2^(64 n)` (Montgomery representation) -/
def fpVal (T : Tables) (p : ℕ) (x : List Digit) : ZMod p := (val x : ZMod p) * ((2 : ZMod p) ^ (64 * T.n))⁻¹

section
variable [hp : Fact p.Prime]

theorem R_ne_zero (g : Good T p) : ((2 : ZMod p) ^ (64 * T.n)) ≠ 0 := by
  apply pow_ne_zero
  intro h
  have h2 : ((2 : ℕ) : ZMod p) = 0 := by exact_mod_cast h
  rw [ZMod.natCast_eq_zero_iff] at h2
  have := Nat.le_of_dvd (by norm_num) h2
  have := g.pos
  omega

theorem two_ne (g : Good T p) : (2 : ZMod p) ≠ 0 := by
  intro h
  have h2 : ((2 : ℕ) : ZMod p) = 0 := by exact_mod_cast h
  rw [ZMod.natCast_eq_zero_iff] at h2
  have := Nat.le_of_dvd (by norm_num) h2
  have := g.pos
  omega

theorem cast_p : ((p : ℕ) : ZMod p) = 0 := ZMod.natCast_self p

theorem cast_kp (k : ℕ) : ((k * p : ℕ) : ZMod p) = 0 := by rw [Nat.cast_mul, cast_p, mul_zero]

theorem fpaddC_spec (g : Good T p) {a b : List Digit} {B C : ℕ} (ha : Rng T B a) (hb : Rng T C b) (h : B + C ≤ 4 * p + 1) :
    Rng T (2 * p) (fpaddC T a b) ∧ fpVal T p (fpaddC T a b) = fpVal T p a + fpVal T p b := by
  have h1 := ha.lt
  have h2 := hb.lt
  have := g.room
  obtain ⟨l, hv⟩ := fpadd_val g ha.len hb.len (by omega)
  refine ⟨⟨l, by rw [hv]; split <;> omega⟩, ?_⟩
  unfold fpVal
  rw [← add_mul, hv]
  congr 1
  split
  · rw [Nat.cast_sub (by assumption), Nat.cast_add, cast_kp, sub_zero]
  · rw [Nat.cast_add]

theorem fpsubC_spec (g : Good T p) {a b : List Digit} (ha : Rng T (2 * p) a) (hb : Rng T (2 * p + 1) b) :
    Rng T (2 * p) (fpsubC T a b) ∧ fpVal T p (fpsubC T a b) = fpVal T p a - fpVal T p b := by
  have h1 := ha.lt
  have h2 := hb.lt
  obtain ⟨l, hv⟩ := fpsub_val g ha.len hb.len (by omega)
  refine ⟨⟨l, by rw [hv]; split <;> omega⟩, ?_⟩
  unfold fpVal
  rw [← sub_mul, hv]
  congr 1
  split
  · rw [Nat.cast_sub (by assumption)]
  · rw [Nat.cast_sub (by omega), Nat.cast_add, cast_kp, add_zero]

theorem fpneg_spec (g : Good T p) {a : List Digit} (ha : Rng T (2 * p + 1) a) :
    Rng T (2 * p + 1) (fpneg T a) ∧ fpVal T p (fpneg T a) = - fpVal T p a := by
  have h1 := ha.lt
  obtain ⟨l, hv⟩ := fpneg_val g ha.len (by omega)
  refine ⟨⟨l, by rw [hv]; omega⟩, ?_⟩
  unfold fpVal
  rw [← neg_mul, hv]
  congr 1
  rw [Nat.cast_sub (by omega), cast_kp, zero_sub]

theorem fpdiv2_spec (g : Good T p) {a : List Digit} {B : ℕ} (ha : Rng T B a) (hB : B ≤ 3 * p) :
    Rng T (2 * p) (fpdiv2 T a) ∧ fpVal T p (fpdiv2 T a) = fpVal T p a / 2 := by
  have h1 := ha.lt
  have := g.room
  have := g.pos
  have := g.odd
  obtain ⟨l, hv⟩ := fpdiv2_val g ha.len (by omega)
  refine ⟨⟨l, by rw [hv]; split <;> omega⟩, ?_⟩
  have h2 := two_ne g
  rw [eq_div_iff h2]
  unfold fpVal
  rw [mul_right_comm, hv]
  congr 1
  have key : (if val a % 2 = 1 then (val a + p) / 2 else val a / 2) * 2 = if val a % 2 = 1 then val a + p else val a := by
    split <;> omega
  have := congrArg (Nat.cast : ℕ → ZMod p) key
  rw [Nat.cast_mul] at this
  have e2 : ((2 : ℕ) : ZMod p) = 2 := by norm_num
  rw [e2] at this
  rw [this]
  split
  · rw [Nat.cast_add, cast_p, add_zero]
  · rfl

theorem fpcorrection_spec (g : Good T p) {a : List Digit} (ha : Rng T (2 * p) a) :
    Rng T p (fpcorrection T a) ∧ fpVal T p (fpcorrection T a) = fpVal T p a := by
  have h1 := ha.lt
  obtain ⟨l, hv⟩ := fpcorrection_val g ha.len
  refine ⟨⟨l, by rw [hv]; split <;> omega⟩, ?_⟩
  unfold fpVal
  rw [hv]
  congr 1
  split
  · rw [Nat.cast_sub (by assumption), cast_p, sub_zero]
  · rfl

theorem subP2C_spec (g : Good T p) {a b : List Digit} {B C : ℕ} (ha : Rng T B a) (hb : Rng T C b) (hC : C ≤ 2 * p + 1)
    (hB : B + 2 * p ≤ 256 * p) :
    Rng T (B + 2 * p) (subP2C T a b) ∧ fpVal T p (subP2C T a b) = fpVal T p a - fpVal T p b := by
  have h1 := ha.lt
  have h2 := hb.lt
  have := g.room
  obtain ⟨l, hv⟩ := subP2_val g ha.len hb.len (by omega) (by omega)
  refine ⟨⟨l, by rw [hv]; omega⟩, ?_⟩
  unfold fpVal
  rw [← sub_mul, hv]
  congr 1
  rw [Nat.cast_sub (by omega), Nat.cast_add, cast_kp, add_zero]

theorem subP4_spec (g : Good T p) {a b : List Digit} {B C : ℕ} (ha : Rng T B a) (hb : Rng T C b) (hC : C ≤ 4 * p + 1)
    (hB : B + 4 * p ≤ 256 * p) :
    Rng T (B + 4 * p) (subP4 T a b) ∧ fpVal T p (subP4 T a b) = fpVal T p a - fpVal T p b := by
  have h1 := ha.lt
  have h2 := hb.lt
  have := g.room
  obtain ⟨l, hv⟩ := subP4_val g ha.len hb.len (by omega) (by omega)
  refine ⟨⟨l, by rw [hv]; omega⟩, ?_⟩
  unfold fpVal
  rw [← sub_mul, hv]
  congr 1
  rw [Nat.cast_sub (by omega), Nat.cast_add, cast_kp, add_zero]

theorem mpAddfastC_spec (g : Good T p) {a b : List Digit} {B C : ℕ} (ha : Rng T B a) (hb : Rng T C b)
    (h : B + C ≤ 256 * p) :
    Rng T (B + C) (mpAddfastC a b) ∧ val (mpAddfastC a b) = val a + val b ∧
      fpVal T p (mpAddfastC a b) = fpVal T p a + fpVal T p b := by
  have h1 := ha.lt
  have h2 := hb.lt
  have := g.room
  obtain ⟨l, hv⟩ := add0_exact ha.len hb.len (by omega)
  refine ⟨⟨l, by rw [mpAddfastC, mpAdd, hv]; omega⟩, hv, ?_⟩
  unfold fpVal
  rw [← add_mul, mpAddfastC, mpAdd, hv, Nat.cast_add]

omit hp in
theorem mul_bound (g : Good T p) {x y B C : ℕ} (hx : x < B * p) (hy : y < C * p) (h : B * C ≤ 256) :
    x * y < 2 ^ (64 * T.n) * p := by
  have := g.room
  have hp0 : 0 < p := by have := g.pos; omega
  calc x * y < (B * p) * (C * p) := Nat.mul_lt_mul'' hx hy
    _ = (B * C) * p * p := by ring
    _ ≤ 256 * p * p := Nat.mul_le_mul_right _ (Nat.mul_le_mul_right _ h)
    _ ≤ 2 ^ (64 * T.n) * p := Nat.mul_le_mul_right _ this.le

theorem exact_val (g : Good T p) {c m q : ℕ} (h : c * 2 ^ (64 * T.n) = m + q * p) :
    (c : ZMod p) = (m : ZMod p) * ((2 : ZMod p) ^ (64 * T.n))⁻¹ := by
  have := congrArg (Nat.cast : ℕ → ZMod p) h
  rw [Nat.cast_mul, Nat.cast_add, cast_kp, add_zero, Nat.cast_pow] at this
  have e2 : ((2 : ℕ) : ZMod p) = 2 := by norm_num
  rw [e2] at this
  rw [← this, mul_assoc, mul_inv_cancel₀ (R_ne_zero g), mul_one]

theorem fpmulC_spec' (g : Good T p) {a b : List Digit} (ha : a.length = T.n) (hb : b.length = T.n)
    (h : val a * val b < 2 ^ (64 * T.n) * p) :
    Rng T (2 * p) (fpmulC T a b) ∧ fpVal T p (fpmulC T a b) = fpVal T p a * fpVal T p b := by
  obtain ⟨c, q, _, e2, l, hq, hv⟩ := fpmul_exact g ha hb h
  rw [e2]
  refine ⟨⟨l, lt_two_of_exact hq h hv⟩, ?_⟩
  have := exact_val g hv
  unfold fpVal
  rw [this, Nat.cast_mul]
  ring

theorem fpmulC_spec (g : Good T p) {a b : List Digit} {B C : ℕ} (ha : Rng T (B * p) a) (hb : Rng T (C * p) b)
    (h : B * C ≤ 256) :
    Rng T (2 * p) (fpmulC T a b) ∧ fpVal T p (fpmulC T a b) = fpVal T p a * fpVal T p b :=
  fpmulC_spec' g ha.len hb.len (mul_bound g ha.lt hb.lt h)

theorem rng_le (g : Good T p) {x : List Digit} (h : Rng T (2 * p + 1) x) : Rng T (3 * p) x :=
  h.mono (by have := g.pos; omega)

end

end Secuer.Word
