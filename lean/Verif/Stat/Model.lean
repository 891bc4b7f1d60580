import Verif.Protocol.Model
import Mathlib.Analysis.SpecialFunctions.Log.Base
import Mathlib.Analysis.SpecialFunctions.Pow.Real

/-!
# The script that chose the parameters

`scripts/statistical_parameters.py`, in exact real arithmetic; the script itself computes in double precision.
-/

namespace Secuer.Stat

open Secuer.Field Real

/-- `sec_levels` (`statistical_parameters.py:3`) -/
def security : Level → ℕ
  | .l434 => 128
  | .l503 => 128
  | .l610 => 192
  | .l751 => 256

/-- `e` (`statistical_parameters.py:4`) -/
def e : Level → ℕ × ℕ
  | .l434 => (216, 137)
  | .l503 => (250, 159)
  | .l610 => (305, 192)
  | .l751 => (372, 239)

/-- `stat_distance_two` (`statistical_parameters.py:7-8`) -/
noncomputable def two (p k : ℕ) : ℝ := -2 + logb 2 (p - 1) / 2 + logb 2 (k + 1 / 3) - k / 2

/-- `stat_distance_three` (`statistical_parameters.py:10-13`) -/
noncomputable def three (p t k : ℕ) : ℝ :=
  let x := -2 + logb 2 (p - 1) / 2 + logb 2 (1 + (2 : ℝ) ^ ((t : ℝ) / 2) * ((1 : ℝ) + 1 / 3) ^ ((1 : ℝ) / 2))
  let sec := x + logb 2 (k + 2 / 4) - k / 2 * logb 2 3
  sec

open Classical in
/-- The loop of `find_k_two` and `find_k_three` (`statistical_parameters.py:15-23`) -/
noncomputable def findK (f : ℕ → ℝ) (security : ℕ) : Option ℕ := (List.range' 100 1900).find? fun k => decide (f k < -security)

/-- `p` (`statistical_parameters.py:49`) -/
def prime (l : Level) : ℕ := 2 ^ (e l).1 * 3 ^ (e l).2 - 1

/-- `two_len` of the second table (`statistical_parameters.py:53`) -/
noncomputable def twoLen (l : Level) : Option ℕ := findK (two (prime l)) (security l)

/-- `three_len` of the second table (`statistical_parameters.py:54`) -/
noncomputable def threeLen (l : Level) : Option ℕ := do findK (three (prime l) (← twoLen l)) (security l)

/-- `reps` (`statistical_parameters.py:26, 55`) -/
noncomputable def reps (l : Level) : ℤ := ⌈(security l : ℝ) * (1 / logb 2 (3 / 2))⌉

/-- `w` of the second table (`statistical_parameters.py:56`) -/
noncomputable def w (l : Level) : Option ℤ := do some ⌈((← twoLen l : ℕ) : ℝ) / (e l).1⌉

/-- `h` of the second table (`statistical_parameters.py:57`) -/
noncomputable def h (l : Level) : Option ℤ := do some ⌈((← threeLen l : ℕ) : ℝ) / (e l).2⌉

end Secuer.Stat
