import Verif.Stat.Model

/-!
# The choice of the parameters (C83, C84)
-/

namespace Secuer.StatProps

open Secuer.Field Secuer.Protocol Secuer.Stat Real

set_option exponentiation.threshold 5000
set_option maxRecDepth 100000

/-! ### Logarithms and integers -/

theorem two_two {p : ℕ} (hp : 1 < p) (k : ℕ) : 2 * two p k = logb 2 (((p : ℝ) - 1) * (3 * k + 1) ^ 2 / (144 * 2 ^ k)) := by
  have h1 : (0 : ℝ) < (p : ℝ) - 1 := by
    have : (1 : ℝ) < p := by exact_mod_cast hp
    linarith
  have hk : (0 : ℝ) < 3 * k + 1 := by positivity
  have h144 : (144 : ℝ) = 2 ^ 4 * 3 ^ 2 := by norm_num
  have e1 : ((k : ℝ) + 1 / 3) = (3 * k + 1) / 3 := by ring
  rw [two, e1, logb_div hk.ne' (by norm_num), logb_div (by positivity) (by positivity), logb_mul h1.ne' (by positivity), logb_pow,
    logb_mul (by norm_num) (by positivity), h144, logb_mul (by positivity) (by positivity), logb_pow, logb_pow, logb_pow,
    logb_self_eq_one (by norm_num)]
  push_cast
  ring

theorem two_lt {p : ℕ} (hp : 1 < p) (k s : ℕ) : two p k < -s ↔ (p - 1) * (3 * k + 1) ^ 2 * 2 ^ (2 * s) < 144 * 2 ^ k := by
  have h1 : (0 : ℝ) < (p : ℝ) - 1 := by
    have : (1 : ℝ) < p := by exact_mod_cast hp
    linarith
  have e : two p k < -s ↔ 2 * two p k < -(2 * s : ℕ) := by
    push_cast
    constructor <;> intro h <;> linarith
  rw [e, two_two hp, logb_lt_iff_lt_rpow (by norm_num) (by positivity), rpow_neg (by norm_num), rpow_natCast,
    div_lt_iff₀ (by positivity), ← div_eq_inv_mul, lt_div_iff₀ (by positivity)]
  have : ((p - 1 : ℕ) : ℝ) = p - 1 := by rw [Nat.cast_sub hp.le]; norm_num
  rw [← this]
  exact_mod_cast Iff.rfl

/-- the factor from the level structure -/
noncomputable def level (t : ℕ) : ℝ := (2 : ℝ) ^ ((t : ℝ) / 2) * ((1 : ℝ) + 1 / 3) ^ ((1 : ℝ) / 2)

theorem level_pos (t : ℕ) : 0 < level t := by unfold level; positivity

theorem level_sq (t : ℕ) : level t ^ 2 = 2 ^ (t + 2) / 3 := by
  have e1 : ((2 : ℝ) ^ ((t : ℝ) / 2)) ^ 2 = 2 ^ t := by
    rw [← rpow_natCast, ← rpow_mul (by norm_num), ← rpow_natCast]
    congr 1
    push_cast
    ring
  have e2 : (((1 : ℝ) + 1 / 3) ^ ((1 : ℝ) / 2)) ^ 2 = 4 / 3 := by
    rw [← rpow_natCast, ← rpow_mul (by norm_num)]
    norm_num
  rw [level, mul_pow, e1, e2]
  ring

theorem two_three {p : ℕ} (hp : 1 < p) (t k : ℕ) :
    2 * three p t k = logb 2 (((p : ℝ) - 1) * (1 + level t) ^ 2 * (2 * k + 1) ^ 2 / (64 * 3 ^ k)) := by
  have h1 : (0 : ℝ) < (p : ℝ) - 1 := by
    have : (1 : ℝ) < p := by exact_mod_cast hp
    linarith
  have hl := level_pos t
  have hk : (0 : ℝ) < 2 * k + 1 := by positivity
  have h64 : (64 : ℝ) = 2 ^ 6 := by norm_num
  have e1 : ((k : ℝ) + 2 / 4) = (2 * k + 1) / 2 := by ring
  have e2 : three p t k = -2 + logb 2 (p - 1) / 2 + logb 2 (1 + level t) + logb 2 (k + 2 / 4) - k / 2 * logb 2 3 := rfl
  rw [e2, e1, logb_div hk.ne' (by norm_num), logb_div (by positivity) (by positivity), logb_mul (by positivity) (by positivity), logb_mul h1.ne' (by positivity),
    logb_pow, logb_pow, logb_mul (by norm_num) (by positivity), h64, logb_pow, logb_pow,
    logb_self_eq_one (by norm_num)]
  push_cast
  ring

theorem three_lt_iff {p : ℕ} (hp : 1 < p) (t k s : ℕ) :
    three p t k < -s ↔ ((p : ℝ) - 1) * (1 + level t) ^ 2 * (2 * k + 1) ^ 2 * 2 ^ (2 * s) < 64 * 3 ^ k := by
  have h1 : (0 : ℝ) < (p : ℝ) - 1 := by
    have : (1 : ℝ) < p := by exact_mod_cast hp
    linarith
  have hl := level_pos t
  have e : three p t k < -s ↔ 2 * three p t k < -(2 * s : ℕ) := by
    push_cast
    constructor <;> intro h <;> linarith
  rw [e, two_three hp, logb_lt_iff_lt_rpow (by norm_num) (by positivity), rpow_neg (by norm_num), rpow_natCast,
    div_lt_iff₀ (by positivity), ← div_eq_inv_mul, lt_div_iff₀ (by positivity)]

/-- from below, without the `1 +` -/
theorem three_ge {p : ℕ} (hp : 1 < p) {t k s : ℕ}
    (h : 192 * 3 ^ k ≤ (p - 1) * 2 ^ (t + 2) * (2 * k + 1) ^ 2 * 2 ^ (2 * s)) : -(s : ℝ) ≤ three p t k := by
  have h1 : (0 : ℝ) < (p : ℝ) - 1 := by
    have : (1 : ℝ) < p := by exact_mod_cast hp
    linarith
  have hl := level_pos t
  by_contra hc
  have hc := (three_lt_iff hp t k s).1 (lt_of_not_ge hc)
  have h' : (192 : ℝ) * 3 ^ k ≤ ((p : ℝ) - 1) * 2 ^ (t + 2) * (2 * k + 1) ^ 2 * 2 ^ (2 * s) := by
    have : ((p - 1 : ℕ) : ℝ) = p - 1 := by rw [Nat.cast_sub hp.le]; norm_num
    rw [← this]
    exact_mod_cast h
  have h2 : level t ^ 2 ≤ (1 + level t) ^ 2 := by nlinarith
  rw [level_sq] at h2
  have h3 : ((p : ℝ) - 1) * (2 ^ (t + 2) / 3) * (2 * k + 1) ^ 2 * 2 ^ (2 * s) ≤
      ((p : ℝ) - 1) * (1 + level t) ^ 2 * (2 * k + 1) ^ 2 * 2 ^ (2 * s) := by gcongr
  linarith

/-- from above; the `1 +` changes the square by a thousandth at most -/
theorem three_lt {p : ℕ} (hp : 1 < p) {t k s : ℕ} (ht : 26 ≤ t)
    (h : 1001 * ((p - 1) * 2 ^ (t + 2) * (2 * k + 1) ^ 2 * 2 ^ (2 * s)) < 192000 * 3 ^ k) : three p t k < -s := by
  have h1 : (0 : ℝ) < (p : ℝ) - 1 := by
    have : (1 : ℝ) < p := by exact_mod_cast hp
    linarith
  have hl := level_pos t
  rw [three_lt_iff hp]
  have h' : 1001 * (((p : ℝ) - 1) * 2 ^ (t + 2) * (2 * k + 1) ^ 2 * 2 ^ (2 * s)) < 192000 * 3 ^ k := by
    have : ((p - 1 : ℕ) : ℝ) = p - 1 := by rw [Nat.cast_sub hp.le]; norm_num
    rw [← this]
    exact_mod_cast h
  have hb : (3000 : ℝ) ≤ level t := by
    have : (3000 : ℝ) ^ 2 ≤ level t ^ 2 := by
      rw [level_sq]
      have : (2 : ℝ) ^ 28 ≤ 2 ^ (t + 2) := pow_le_pow_right₀ (by norm_num) (by omega)
      linarith
    exact le_of_sq_le_sq this hl.le
  have h2 : 1000 * (1 + level t) ^ 2 ≤ 1001 * level t ^ 2 := by nlinarith
  rw [level_sq] at h2
  have h3 : ((p : ℝ) - 1) * (1000 * (1 + level t) ^ 2) * (2 * k + 1) ^ 2 * 2 ^ (2 * s) ≤
      ((p : ℝ) - 1) * (1001 * (2 ^ (t + 2) / 3)) * (2 * k + 1) ^ 2 * 2 ^ (2 * s) := by gcongr
  linarith

theorem findK_eq {f : ℕ → ℝ} {s n : ℕ} (hn : n < 1900) (h1 : f (100 + n) < -s) (h2 : ∀ i < n, ¬ f (100 + i) < -s) :
    findK f s = some (100 + n) := by
  rw [findK, List.find?_range'_eq_some]
  refine ⟨by simpa using h1, by simp; omega, fun j hj hj' => ?_⟩
  obtain ⟨i, rfl⟩ := Nat.exists_eq_add_of_le hj
  simpa using h2 i (by omega)

theorem prime_eq (l : Level) : prime l = l.p := by cases l <;> decide +kernel

theorem prime_gt (l : Level) : 1 < prime l := by cases l <;> decide +kernel

/-- The lengths that the script finds -/
def lens : Level → ℕ × ℕ
  | .l434 => (705, 890)
  | .l503 => (774, 977)
  | .l610 => (1010, 1275)
  | .l751 => (1280, 1616)

theorem twoLen_eq (l : Level) : twoLen l = some (lens l).1 := by
  have h : ∀ i < (lens l).1 - 100, ¬ (prime l - 1) * (3 * (100 + i) + 1) ^ 2 * 2 ^ (2 * security l) < 144 * 2 ^ (100 + i) := by
    cases l <;> decide +kernel
  have h' : (prime l - 1) * (3 * (lens l).1 + 1) ^ 2 * 2 ^ (2 * security l) < 144 * 2 ^ (lens l).1 := by cases l <;> decide +kernel
  have e : 100 + ((lens l).1 - 100) = (lens l).1 := by cases l <;> rfl
  have := findK_eq (f := two (prime l)) (s := security l) (n := (lens l).1 - 100) (by cases l <;> decide)
    (by rw [e, two_lt (prime_gt l)]; exact h') (fun i hi => by rw [two_lt (prime_gt l)]; exact h i hi)
  rwa [e] at this

theorem threeLen_eq (l : Level) : threeLen l = some (lens l).2 := by
  have h : ∀ i < (lens l).2 - 100, 192 * 3 ^ (100 + i) ≤ (prime l - 1) * 2 ^ ((lens l).1 + 2) * (2 * (100 + i) + 1) ^ 2 *
      2 ^ (2 * security l) := by
    cases l <;> decide +kernel
  have h' : 1001 * ((prime l - 1) * 2 ^ ((lens l).1 + 2) * (2 * (lens l).2 + 1) ^ 2 * 2 ^ (2 * security l)) <
      192000 * 3 ^ (lens l).2 := by cases l <;> decide +kernel
  have e : 100 + ((lens l).2 - 100) = (lens l).2 := by cases l <;> rfl
  have := findK_eq (f := three (prime l) (lens l).1) (s := security l) (n := (lens l).2 - 100) (by cases l <;> decide)
    (by rw [e]; exact three_lt (prime_gt l) (by cases l <;> decide) h') (fun i hi => not_lt.2 (three_ge (prime_gt l) (h i hi)))
  rw [e] at this
  simp only [threeLen, twoLen_eq, bind, Option.bind, this]

theorem ceil_div {a b c : ℕ} (hb : 0 < b) (h1 : a ≤ c * b) (h2 : (c - 1) * b < a) : ⌈(a : ℝ) / b⌉ = c := by
  rw [Int.ceil_eq_iff]
  have hb' : (0 : ℝ) < b := by exact_mod_cast hb
  constructor
  · rw [lt_div_iff₀ hb']
    have hc : 1 ≤ c := by
      rcases c with _ | c
      · omega
      · omega
    have : (((c - 1 : ℕ) : ℝ)) * b < a := by exact_mod_cast h2
    rw [Nat.cast_sub hc] at this
    exact_mod_cast this
  · rw [div_le_iff₀ hb']
    exact_mod_cast h1

/-! ### C83 -/

/-- **C83.** `POIK_REPS`, `POIK_WIDTH` and `POIK_HEIGHT` are what the script prints in its second table. -/
theorem C83_script (l : Level) : Stat.reps l = (params l).reps ∧ w l = some ((params l).width : ℤ) ∧
    h l = some ((params l).height : ℤ) := by
  refine ⟨?_, ?_, ?_⟩
  · have hl : (0 : ℝ) < logb 2 (3 / 2) := logb_pos (by norm_num) (by norm_num)
    have h1 : 2 ^ (security l + (params l).reps) ≤ 3 ^ (params l).reps := by cases l <;> decide +kernel
    have h2 : 3 ^ ((params l).reps - 1) < 2 ^ (security l + ((params l).reps - 1)) := by cases l <;> decide +kernel
    have h3 : 1 ≤ (params l).reps := by cases l <;> decide
    have key : ∀ n : ℕ, (n : ℝ) * logb 2 (3 / 2) = logb 2 (3 ^ n) - n := fun n => by
      rw [logb_pow, logb_div (by norm_num) (by norm_num), logb_self_eq_one (by norm_num)]
      ring
    have p2 : ∀ n : ℕ, logb 2 ((2 : ℝ) ^ n) = n := fun n => by rw [logb_pow, logb_self_eq_one (by norm_num), mul_one]
    rw [Stat.reps, Int.ceil_eq_iff, mul_one_div]
    constructor
    · rw [lt_div_iff₀ hl]
      have e : (((params l).reps : ℤ) : ℝ) - 1 = (((params l).reps - 1 : ℕ) : ℝ) := by
        rw [Nat.cast_sub h3]
        norm_num
      have : logb 2 ((3 : ℝ) ^ ((params l).reps - 1)) < logb 2 (2 ^ (security l + ((params l).reps - 1))) :=
        logb_lt_logb (by norm_num) (by positivity) (by exact_mod_cast h2)
      rw [p2] at this
      rw [e, key]
      push_cast at this
      linarith
    · rw [div_le_iff₀ hl]
      have : logb 2 ((2 : ℝ) ^ (security l + (params l).reps)) ≤ logb 2 (3 ^ (params l).reps) :=
        logb_le_logb_of_le (by norm_num) (by positivity) (by exact_mod_cast h1)
      rw [p2] at this
      have e : (((params l).reps : ℤ) : ℝ) = (((params l).reps : ℕ) : ℝ) := by norm_num
      rw [e, key]
      push_cast at this
      linarith
  · simp only [w, twoLen_eq, bind, Option.bind]
    rw [ceil_div (c := (params l).width) (by cases l <;> decide) (by cases l <;> decide) (by cases l <;> decide)]
  · simp only [h, threeLen_eq, bind, Option.bind]
    rw [ceil_div (c := (params l).height) (by cases l <;> decide) (by cases l <;> decide) (by cases l <;> decide)]

/-- **C83.** The knowledge error (C80) is at most `2^-security`, and one repetition less would not be enough. -/
theorem C83_reps (l : Level) : (2 / 3 : ℝ) ^ (params l).reps ≤ 2⁻¹ ^ security l ∧
    2⁻¹ ^ security l < (2 / 3 : ℝ) ^ ((params l).reps - 1) := by
  have h1 : 2 ^ (security l + (params l).reps) ≤ 3 ^ (params l).reps := by cases l <;> decide +kernel
  have h2 : 3 ^ ((params l).reps - 1) < 2 ^ (security l + ((params l).reps - 1)) := by cases l <;> decide +kernel
  rw [inv_pow]
  constructor
  · rw [div_pow, div_le_iff₀ (by positivity), inv_mul_eq_div, le_div_iff₀ (by positivity), ← pow_add, add_comm]
    exact_mod_cast h1
  · rw [div_pow, lt_div_iff₀ (by positivity), inv_mul_eq_div, div_lt_iff₀ (by positivity), ← pow_add, add_comm]
    exact_mod_cast h2

/-! ### C84 -/

/-- The bits that the bound of the script gives for the walks that the code takes -/
def bits : Level → ℕ
  | .l434 => 104
  | .l503 => 123
  | .l610 => 142
  | .l751 => 198

/-- **C84 (finding).** The script bounds the distance of a walk of length `three_len` on the graph with a level structure `2^two_len`,
for the smallest `two_len` that makes a walk of degree `2^two_len` mix. The secret of the code has degree `2^(e2·POIK_WIDTH)`, which is
larger. For the walks that the code takes the bound of the script is no better than `2^-104`, `2^-123`, `2^-142`, `2^-198`, for security levels
of 128, 128, 192, 256. -/
theorem C84_bound (l : Level) : -(bits l : ℝ) ≤ three l.p (l.iso.e2 * (params l).width) (l.iso.e3 * (params l).height) ∧
    three l.p (l.iso.e2 * (params l).width) (l.iso.e3 * (params l).height) < -((bits l : ℝ) - 1) ∧ bits l < security l := by
  rw [← prime_eq]
  refine ⟨three_ge (prime_gt l) (by cases l <;> decide +kernel), ?_, by cases l <;> decide⟩
  have e : (bits l : ℝ) - 1 = ((bits l - 1 : ℕ) : ℝ) := by
    rw [Nat.cast_sub (by cases l <;> decide)]
    norm_num
  rw [e]
  exact three_lt (prime_gt l) (by cases l <;> decide) (by cases l <;> decide +kernel)

/-- **C84.** One more row would do. -/
theorem C84_height (l : Level) :
    three l.p (l.iso.e2 * (params l).width) (l.iso.e3 * ((params l).height + 1)) < -(security l : ℝ) := by
  rw [← prime_eq]
  exact three_lt (prime_gt l) (by cases l <;> decide) (by cases l <;> decide +kernel)

end Secuer.StatProps
